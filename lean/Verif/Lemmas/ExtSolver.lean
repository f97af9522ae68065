import Verif.Spec.ExtSolver
import Verif.Props.Math

/-! Helper lemmas about NaN and infinite values in the solver loop. -/

set_option linter.unusedSectionVars false
namespace ProxNLP

open ExtScalar Spec

variable {K : Type} [Field K] [LinearOrder K] [IsStrictOrderedRing K]

theorem ext_add_fin {a b : ExtScalar K} {r : K} (h : a + b = fin r) : ∃ x y, a = fin x ∧ b = fin y ∧ r = x + y := by
  cases a <;> cases b <;> simp only [HAdd.hAdd, Add.add, ExtScalar.add] at h <;> cases h
  exact ⟨_, _, rfl, rfl, rfl⟩

theorem ext_sub_fin {a b : ExtScalar K} {r : K} (h : a - b = fin r) : ∃ x y, a = fin x ∧ b = fin y ∧ r = x - y := by
  obtain ⟨x, y, h1, h2, h3⟩ := ext_add_fin (a := a) (b := -b) h
  cases b <;> simp only [Neg.neg, ExtScalar.neg] at h2 <;> cases h2
  exact ⟨x, _, h1, rfl, by rw [h3]; exact (sub_eq_add_neg _ _).symm⟩

theorem infTimes_ne {a r : K} : infTimes a ≠ fin r := by
  unfold infTimes; split_ifs <;> simp

theorem ext_mul_fin {a b : ExtScalar K} {r : K} (h : a * b = fin r) : ∃ x y, a = fin x ∧ b = fin y ∧ r = x * y := by
  cases a <;> cases b <;> simp only [HMul.hMul, Mul.mul, ExtScalar.mul] at h <;> first | cases h | exact absurd h infTimes_ne
  exact ⟨_, _, rfl, rfl, rfl⟩

@[simp] theorem ext_fin_add (a b : K) : (fin a + fin b : ExtScalar K) = fin (a + b) := rfl
@[simp] theorem ext_fin_sub (a b : K) : (fin a - fin b : ExtScalar K) = fin (a - b) := by
  show fin (a + -b) = _; rw [sub_eq_add_neg]
@[simp] theorem ext_fin_mul (a b : K) : (fin a * fin b : ExtScalar K) = fin (a * b) := rfl

theorem ext_sum_map (l : List K) : ((l.map fin).sum : ExtScalar K) = fin l.sum := by
  induction l with
  | nil => rfl
  | cons a t ih => rw [List.map_cons, List.sum_cons, ih, List.sum_cons]; rfl

theorem ext_sum_fin : ∀ (l : List (ExtScalar K)) {r : K}, l.sum = fin r → ∀ e ∈ l, ∃ a, e = fin a
  | [], _, _, _, he => absurd he List.not_mem_nil
  | a :: t, r, h, e, he => by
    rw [List.sum_cons] at h
    obtain ⟨x, y, h1, h2, -⟩ := ext_add_fin h
    rcases List.mem_cons.1 he with rfl | he
    · exact ⟨x, h1⟩
    · exact ext_sum_fin t h2 e he

theorem checkValue_false {l : List (ExtScalar K)} (h : checkValue l = false) : ∀ e ∈ l, ∃ a, e = fin a := by
  obtain ⟨v, rfl⟩ := (C66_check l).2.1.1 h
  intro e he
  obtain ⟨a, -, rfl⟩ := List.mem_map.1 he
  exact ⟨a, rfl⟩

theorem checkValue_ofFn {k : ℕ} (f : Fin k → K) : checkValue (List.ofFn fun i => fin (f i)) = false :=
  (C66_check _).2.1.2 ⟨List.ofFn f, by rw [List.map_ofFn]; rfl⟩

/-- a finite normal part means a finite argument, or `-∞` below the negative orthant -/
theorem ext_normal_fin {s : ExtSet K} {mu : K} {z : ExtScalar K} {r : K} (h : s.normal mu z = fin r) :
    (∃ a, z = fin a) ∨ (s = .negOrthant ∧ z = negInf) := by
  cases s with
  | equality => exact .inl ⟨r, h⟩
  | box lo hi => obtain ⟨x, -, h1, -⟩ := ext_sub_fin (show z - _ = fin r from h); exact .inl ⟨x, h1⟩
  | l1 => obtain ⟨x, -, h1, -⟩ := ext_sub_fin (show z - _ = fin r from h); exact .inl ⟨x, h1⟩
  | negOrthant =>
    cases z with
    | fin a => exact .inl ⟨a, rfl⟩
    | negInf => exact .inr ⟨rfl, rfl⟩
    | nan => simp [ExtSet.normal, stdMax, lt] at h
    | posInf => simp [ExtSet.normal, stdMax, lt] at h

variable {X H : Type} {n m : ℕ}

/-- what the check of the right-hand side guarantees -/
structure ExtClean (P : ExtCtx X K H n m) (x : X) (lam : Fin m → ExtScalar K) : Prop where
  grad : ∀ j, ∃ a, P.grad x j = fin a
  jac : ∀ i j, ∃ a, P.jac x i j = fin a
  lam : ∀ i, ∃ a, lam i = fin a

theorem extEval_clean {P : ExtCtx X K H n m} {S : Settings K} {mu rho : K} {target x : X} {lam lamPrev : Fin m → ExtScalar K}
    {ev : ExtEval K n m} (hev : extEval P S mu rho target x lam lamPrev = some ev) (hok : ev.rhsOk = true)
    (hp : lamPrev = lam ∨ ∀ i, ∃ a, lamPrev i = fin a) :
    ExtClean P x lam ∧ ∃ v c, P.eval x = some (v, c) ∧ ev.value = v ∧
      (∀ i, (∃ a, c i = fin a) ∨ (P.sets i = .negOrthant ∧ c i = negInf)) ∧ ev.prim = extPrim P mu c lam ∧
      ev.dual = P.norm (List.ofFn fun j => P.grad x j + (List.ofFn fun i => P.jac x i j * lam i).sum) := by
  unfold extEval at hev
  obtain ⟨⟨v, c⟩, he, rfl⟩ := Option.map_eq_some_iff.1 hev
  have hfin := checkValue_false (l := _) (by simpa [ExtEval.rhsOk] using hok)
  have htop : ∀ j, ∃ a, P.grad x j + (List.ofFn fun i => P.jac x i j * lam i).sum = fin a := by
    intro j
    obtain ⟨a, ha⟩ := hfin _ (List.mem_append_left _ (List.mem_ofFn.2 ⟨j, rfl⟩))
    split_ifs at ha with hr
    · obtain ⟨y, -, h1, -⟩ := ext_add_fin ha
      exact ⟨y, h1⟩
    · exact ⟨a, ha⟩
  have hgrad : ∀ j, ∃ a, P.grad x j = fin a := fun j => by
    obtain ⟨a, ha⟩ := htop j
    obtain ⟨y, -, h1, -⟩ := ext_add_fin ha
    exact ⟨y, h1⟩
  have hjac : ∀ i j, ∃ a, P.jac x i j = fin a := fun i j => by
    obtain ⟨a, ha⟩ := htop j
    obtain ⟨-, y, -, h1, -⟩ := ext_add_fin ha
    obtain ⟨b, hb⟩ := ext_sum_fin _ h1 _ (List.mem_ofFn.2 ⟨i, rfl⟩)
    obtain ⟨w, -, h2, -⟩ := ext_mul_fin hb
    exact ⟨w, h2⟩
  have hbot := fun i => hfin _ (List.mem_append_right _ (List.mem_ofFn.2 ⟨i, rfl⟩))
  have hlam : ∀ i, ∃ a, lam i = fin a := fun i => by
    obtain ⟨a, ha⟩ := hbot i
    cases hk : S.kkt <;> rw [hk] at ha <;> simp only at ha <;>
    · obtain ⟨-, y, -, h1, -⟩ := ext_mul_fin ha
      obtain ⟨-, w, -, h2, -⟩ := ext_sub_fin h1
      exact ⟨w, h2⟩
  have hprev : ∀ i, ∃ a, lamPrev i = fin a := by rcases hp with rfl | hp; exacts [hlam, hp]
  refine ⟨⟨hgrad, hjac, hlam⟩, v, c, he, rfl, fun i => ?_, rfl, rfl⟩
  obtain ⟨l, hl⟩ := hlam i
  obtain ⟨l', hl'⟩ := hprev i
  have key : ∀ z w : ExtScalar K, (∃ b, w = fin b) → (∃ a, z + w = fin a) ∨ (P.sets i = .negOrthant ∧ z + w = negInf) →
      (∃ a, z = fin a) ∨ (P.sets i = .negOrthant ∧ z = negInf) := by
    rintro z w ⟨b, rfl⟩ (⟨a, h⟩ | ⟨hs, h⟩)
    · obtain ⟨x, -, h1, -⟩ := ext_add_fin h
      exact .inl ⟨x, h1⟩
    · cases z <;> simp only [HAdd.hAdd, Add.add, ExtScalar.add] at h <;> cases h
      exact .inr ⟨hs, rfl⟩
  obtain ⟨a, ha⟩ := hbot i
  refine key (c i) (fin mu * lamPrev i) ⟨mu * l', by rw [hl']; rfl⟩ ?_
  cases hk : S.kkt <;> rw [hk] at ha <;> simp only at ha
  · obtain ⟨-, y, -, h1, -⟩ := ext_mul_fin ha
    obtain ⟨w, -, h2, -⟩ := ext_sub_fin h1
    obtain ⟨-, r, -, h3, -⟩ := ext_mul_fin h2
    exact ext_normal_fin h3
  · obtain ⟨-, y, -, h1, -⟩ := ext_mul_fin ha
    obtain ⟨w, -, h2, -⟩ := ext_sub_fin h1
    obtain ⟨r, -, h3, -⟩ := ext_mul_fin h2
    exact key _ (-(fin (2⁻¹ * mu) * lam i)) ⟨-(2⁻¹ * mu * l), by rw [hl]; rfl⟩ (ext_normal_fin h3)

/-- invariant: the multipliers the penalty is centred at are those of the point, or finite -/
def ExtPrevOk (st : ExtSt X K H m) : Prop := st.lamsPrev = st.lamsOpt ∨ ∀ i, ∃ a, st.lamsPrev i = fin a

/-- the inner loop ended by its test at the point it returns -/
def ExtTested (P : ExtCtx X K H n m) (mu : K) (st : ExtSt X K H m) : Prop :=
  ExtClean P st.xOpt st.lamsOpt ∧ ∃ v c, P.eval st.xOpt = some (v, c) ∧ st.value = v ∧
    (∀ i, (∃ a, c i = fin a) ∨ (P.sets i = .negOrthant ∧ c i = negInf)) ∧ st.prim = extPrim P mu c st.lamsOpt ∧
    st.dual = P.norm (List.ofFn fun j => P.grad st.xOpt j + (List.ofFn fun i => P.jac st.xOpt i j * st.lamsOpt i).sum)

theorem le_of_lt_ext {a b : ExtScalar K} (h : lt a b = true) : le a b = true := by
  cases a <;> cases b <;> simp_all [lt, le]
  exact le_of_lt h

theorem extInner_spec (P : ExtCtx X K H n m) (S : Settings K) : ∀ (st st' : ExtSt X K H m), ExtPrevOk st → extInner P S st = some st' →
    (st.converged ≠ .success → st'.converged ≠ .success) ∧ st'.mu = st.mu ∧ st'.resMu = st.resMu ∧ ExtPrevOk st' ∧ (ExtTested P st.mu st' ∨ le (stdMax st'.prim st'.dual) (fin S.targetTol) = false) := by
  intro st
  induction hk : S.maxIters - st.numIters using Nat.strong_induction_on generalizing st with
  | _ k ih =>
    intro st' hp h
    rw [extInner] at h
    cases hev : extEval P S st.mu st.rho st.target st.xOpt st.lamsOpt st.lamsPrev with
    | none => rw [hev] at h; simp at h
    | some ev =>
      rw [hev] at h
      simp only at h
      by_cases h1 : ev.rhsOk = false ∨ P.matrixOk st.hidden = false
      · rw [if_pos h1] at h; simp at h
      rw [if_neg h1] at h
      have hok : ev.rhsOk = true := by
        cases e : ev.rhsOk
        · exact absurd (Or.inl e) h1
        · rfl
      obtain ⟨hc, v, c, he, hv, hcs, hpr, hdu⟩ := extEval_clean hev hok hp
      by_cases h2 : le ev.innerCrit (fin st.innerTol) = true ∨ le (stdMax ev.prim ev.dual) (fin S.targetTol) = true
      · rw [if_pos h2] at h
        cases h
        exact ⟨id, rfl, rfl, hp, .inl ⟨hc, v, c, he, hv, hcs, hpr, hdu⟩⟩
      rw [if_neg h2] at h
      have hnot : le (stdMax ev.prim ev.dual) (fin S.targetTol) = false := by
        cases e : le (stdMax ev.prim ev.dual) (fin S.targetTol)
        · rfl
        · exact absurd (Or.inr e) h2
      have hprev : ∀ i, ∃ a, st.lamsPrev i = fin a := by
        rcases hp with hp | hp
        · rw [hp]; exact hc.lam
        · exact hp
      cases hs : P.step ⟨(extAfterEval P st ev).xOpt, (extAfterEval P st ev).lamsOpt, (extAfterEval P st ev).lamsPrev,
          (extAfterEval P st ev).target, (extAfterEval P st ev).mu, (extAfterEval P st ev).rho, (extAfterEval P st ev).hidden⟩ with
      | none => rw [hs] at h; simp at h
      | some o =>
        rw [hs] at h
        simp only at h
        by_cases h3 : checkValue (List.ofFn o.lam) = true ∨ checkScalar o.merit = true
        · rw [if_pos h3] at h; simp at h
        rw [if_neg h3] at h
        by_cases h4 : st.numIters + 1 ≥ S.maxIters
        · rw [if_pos h4] at h
          cases h
          exact ⟨fun _ => by simp, rfl, rfl, .inr hprev, .inr hnot⟩
        · rw [if_neg h4] at h
          have key := fun hx hy => ih (S.maxIters - (st.numIters + 1)) (by omega) _ hx st' hy h
          exact key rfl (.inr hprev)

theorem extInner_none (P : ExtCtx X K H n m) (S : Settings K) (st : ExtSt X K H m) (hp : ExtPrevOk st)
    (hbad : (∃ j, ∀ a, P.grad st.xOpt j ≠ fin a) ∨ (∃ i j, ∀ a, P.jac st.xOpt i j ≠ fin a) ∨ (∃ i, ∀ a, st.lamsOpt i ≠ fin a) ∨
      ∃ v c i, P.eval st.xOpt = some (v, c) ∧ (∀ a, c i ≠ fin a) ∧ (P.sets i = .negOrthant → c i ≠ negInf)) :
    extInner P S st = none := by
  rw [extInner]
  cases hev : extEval P S st.mu st.rho st.target st.xOpt st.lamsOpt st.lamsPrev with
  | none => rfl
  | some ev =>
    simp only
    rw [if_pos]
    left
    by_contra hok
    obtain ⟨hc, v, c, he, -, hcs, -⟩ := extEval_clean hev (by simpa using hok) hp
    rcases hbad with ⟨j, hj⟩ | ⟨i, j, hj⟩ | ⟨i, hl⟩ | ⟨v', c', i, he', hc1, hc2⟩
    · obtain ⟨a, ha⟩ := hc.grad j; exact hj a ha
    · obtain ⟨a, ha⟩ := hc.jac i j; exact hj a ha
    · obtain ⟨a, ha⟩ := hc.lam i; exact hl a ha
    · rw [he] at he'
      cases he'
      rcases hcs i with ⟨a, ha⟩ | ⟨h1, h2⟩
      · exact hc1 a ha
      · exact hc2 h1 h2

theorem extOuter_none (P : ExtCtx X K H n m) (S : Settings K) (st : ExtSt X K H m) (hb : st.numIters < S.maxIters ∧ st.alIters < S.maxAlIters)
    (h : extInner P S { st with resMu := st.mu, hidden := P.enterInner st.hidden } = none) : extOuter P S st = none := by
  rw [extOuter, if_pos hb, h]

theorem extAfterInner_prevOk (S : Settings K) (st : ExtSt X K H m) (h : ExtPrevOk st) : ExtPrevOk (extAfterInner S st) := by
  unfold extAfterInner
  simp only
  split_ifs
  · exact .inl rfl
  all_goals exact h

theorem extAfterInner_same (S : Settings K) (st : ExtSt X K H m) : (extAfterInner S st).xOpt = st.xOpt ∧
    (extAfterInner S st).prim = st.prim ∧ (extAfterInner S st).dual = st.dual ∧ (extAfterInner S st).value = st.value ∧
    (extAfterInner S st).resMu = st.resMu ∧ (S.mode = .newton → (extAfterInner S st).lamsOpt = st.lamsOpt) ∧
    (extAfterInner S st).converged = st.converged := by
  unfold extAfterInner
  simp only
  split_ifs <;> refine ⟨rfl, rfl, rfl, rfl, rfl, fun h => ?_, rfl⟩
  · simp only [extTolSuccess, extTolPost, h]
  all_goals rfl

theorem extAfterInner_mu (S : Settings K) (st : ExtSt X K H m) (hpos : 0 < S.muInit ∧ 0 < S.muLower) (h : 0 < st.mu) :
    0 < (extAfterInner S st).mu := by
  unfold extAfterInner
  simp only
  split_ifs
  · exact h
  · exact hpos.1
  · exact lt_of_lt_of_le hpos.2 (le_max_right _ _)

theorem extOuter_spec (P : ExtCtx X K H n m) (S : Settings K) : ∀ (st st' : ExtSt X K H m), ExtPrevOk st → st.converged ≠ .success →
    (0 < S.muInit ∧ 0 < S.muLower → 0 < st.mu) → extOuter P S st = some st' → st'.converged = .success →
    ∃ s, ExtTested P s.resMu s ∧ st'.xOpt = s.xOpt ∧ st'.value = s.value ∧ st'.resMu = s.resMu ∧ (S.mode = .newton → st'.lamsOpt = s.lamsOpt) ∧
      lt (stdMax s.prim s.dual) (fin S.targetTol) = true ∧ (0 < S.muInit ∧ 0 < S.muLower → 0 < s.resMu) := by
  intro st
  induction hk : S.maxAlIters - st.alIters using Nat.strong_induction_on generalizing st with
  | _ k ih =>
    intro st' hp hn hm h hs
    rw [extOuter] at h
    by_cases h0 : st.numIters < S.maxIters ∧ st.alIters < S.maxAlIters
    · rw [if_pos h0] at h
      cases hi : extInner P S { st with resMu := st.mu, hidden := P.enterInner st.hidden } with
      | none => rw [hi] at h; simp at h
      | some s =>
        rw [hi] at h
        simp only at h
        obtain ⟨hcv, hmu, hres, hp1, ht⟩ := extInner_spec P S { st with resMu := st.mu, hidden := P.enterInner st.hidden } s hp hi
        obtain ⟨a1, a2, a3, a4, a5, a6, a7⟩ := extAfterInner_same S s
        by_cases h1 : lt (stdMax (extAfterInner S s).prim (extAfterInner S s).dual) (fin S.targetTol) = true
        · rw [if_pos h1] at h
          cases h
          rw [a2, a3] at h1
          refine ⟨s, ?_, a1, a4, a5, a6, h1, fun hpos => by rw [hres]; exact hm hpos⟩
          rcases ht with ht | ht
          · rw [hres]; exact ht
          · rw [le_of_lt_ext h1] at ht
            exact absurd ht (by simp)
        · rw [if_neg h1] at h
          refine ih (S.maxAlIters - (st.alIters + 1)) (by omega) _ ?_ st' ?_ ?_ ?_ h hs
          · rfl
          · exact extAfterInner_prevOk S s hp1
          · show (extAfterInner S s).converged ≠ .success
            rw [a7]
            exact hcv hn
          · intro hpos
            exact extAfterInner_mu S s hpos (by rw [hmu]; exact hm hpos)
    · rw [if_neg h0] at h
      cases h
      exact absurd hs hn

/-! ### projections of finite numbers -/

theorem ext_box_proj (lo hi : ExtScalar K) (z q : K) (h1 : le lo (fin q) = true) (h2 : le (fin q) hi = true) :
    ∃ p, stdMax (stdMin (fin z) hi) lo = fin p ∧ ExtMem (.box lo hi) p ∧ ∀ q, ExtMem (.box lo hi) q → (z - p) * (q - p) ≤ 0 := by
  cases lo with
  | nan => simp [le] at h1
  | posInf => simp [le] at h1
  | negInf =>
    cases hi with
    | nan => simp [le] at h2
    | negInf => simp [le] at h2
    | posInf => exact ⟨z, by simp [stdMax, stdMin, lt], by simp [ExtMem, le], fun q _ => by simp⟩
    | fin u =>
      by_cases hz : u < z
      · refine ⟨u, by simp [stdMax, stdMin, lt, hz], by simp [ExtMem, le], fun q hq => ?_⟩
        have : q ≤ u := by simpa [ExtMem, le] using hq.2
        exact mul_nonpos_of_nonneg_of_nonpos (by linarith) (by linarith)
      · exact ⟨z, by simp [stdMax, stdMin, lt, hz], by simpa [ExtMem, le] using hz, fun q _ => by simp⟩
  | fin l =>
    have hlq : l ≤ q := by simpa [le] using h1
    cases hi with
    | nan => simp [le] at h2
    | negInf => simp [le] at h2
    | posInf =>
      by_cases hz : z < l
      · refine ⟨l, by simp [stdMax, stdMin, lt, hz], by simp [ExtMem, le], fun q hq => ?_⟩
        have : l ≤ q := by simpa [ExtMem, le] using hq.1
        exact mul_nonpos_of_nonpos_of_nonneg (by linarith) (by linarith)
      · exact ⟨z, by simp [stdMax, stdMin, lt, hz], by simpa [ExtMem, le] using hz, fun q _ => by simp⟩
    | fin u =>
      have hqu : q ≤ u := by simpa [le] using h2
      by_cases hz : u < z
      · have hn : ¬ u < l := by intro h; linarith
        refine ⟨u, by simp [stdMax, stdMin, lt, hz, hn], by simp [ExtMem, le]; linarith, fun q hq => ?_⟩
        have : q ≤ u := by simpa [ExtMem, le] using hq.2
        exact mul_nonpos_of_nonneg_of_nonpos (by linarith) (by linarith)
      · by_cases hz' : z < l
        · refine ⟨l, by simp [stdMax, stdMin, lt, hz, hz'], by simp [ExtMem, le]; linarith, fun q hq => ?_⟩
          have : l ≤ q := by simpa [ExtMem, le] using hq.1
          exact mul_nonpos_of_nonpos_of_nonneg (by linarith) (by linarith)
        · refine ⟨z, by simp [stdMax, stdMin, lt, hz, hz'], ?_, fun q _ => by simp⟩
          exact ⟨by simpa [le] using hz', by simpa [le] using hz⟩

/-- projection of a number onto a proper set: a number, in the set, with the variational inequality of the proximal operator -/
theorem ext_proj_fin (s : ExtSet K) (hs : ExtProper s) (mu : K) (hmu : 0 < mu) (z : K) :
    ∃ p, s.proj mu (fin z) = fin p ∧ ExtMem s p ∧ ∀ q, ExtMem s q → (z - p) * (q - p) ≤ mu * (extPen s q - extPen s p) := by
  cases s with
  | equality => exact ⟨0, rfl, rfl, fun q hq => by simp [extPen, show q = 0 from hq]⟩
  | negOrthant =>
    by_cases hz : 0 < z
    · refine ⟨0, by simp [ExtSet.proj, stdMin, lt, hz], le_refl (0 : K), fun q hq => ?_⟩
      have : q ≤ 0 := hq
      simp only [extPen, sub_zero, mul_zero]
      exact mul_nonpos_of_nonneg_of_nonpos hz.le this
    · exact ⟨z, by simp [ExtSet.proj, stdMin, lt, hz], not_lt.1 hz, fun q _ => by simp [extPen]⟩
  | box lo hi =>
    obtain ⟨q, h1, h2⟩ := hs
    obtain ⟨p, h3, h4, h5⟩ := ext_box_proj lo hi z q h1 h2
    exact ⟨p, h3, h4, fun q hq => by simpa [extPen] using h5 q hq⟩
  | l1 =>
    rcases lt_trichotomy z 0 with hz | hz | hz
    · by_cases hm : -z < mu
      · refine ⟨0, ?_, trivial, fun q _ => ?_⟩
        · have : -z - mu < 0 := by linarith
          simp [ExtSet.proj, sign, stdMax, lt, ExtScalar.abs, abs_of_neg hz, hz, not_lt.2 hz.le, this]
        · simp only [extPen, sub_zero, abs_zero]
          have h1 : z * q ≤ |z| * |q| := by rw [← abs_mul]; exact le_abs_self _
          have h2 : |z| * |q| ≤ mu * |q| := mul_le_mul_of_nonneg_right (by rw [abs_of_neg hz]; exact hm.le) (abs_nonneg q)
          linarith
      · refine ⟨z + mu, ?_, trivial, fun q _ => ?_⟩
        · have : ¬ (-z - mu < 0) := by intro h; apply hm; linarith
          simp [ExtSet.proj, sign, stdMax, lt, ExtScalar.abs, abs_of_neg hz, hz, not_lt.2 hz.le, this]
          exact add_comm mu z
        · simp only [extPen]
          have h1 : z + mu ≤ 0 := by linarith [not_lt.1 hm]
          rw [abs_of_nonpos h1]
          have := mul_le_mul_of_nonneg_left (neg_abs_le q) hmu.le
          linarith
    · subst hz
      refine ⟨0, by simp [ExtSet.proj, sign, lt, stdMax, ExtScalar.abs, hmu], trivial, fun q _ => ?_⟩
      simp only [extPen, sub_zero, abs_zero, zero_mul]
      exact mul_nonneg hmu.le (abs_nonneg q)
    · by_cases hm : z < mu
      · refine ⟨0, ?_, trivial, fun q _ => ?_⟩
        · have : z - mu < 0 := by linarith
          simp [ExtSet.proj, sign, stdMax, lt, ExtScalar.abs, abs_of_pos hz, hz, not_lt.2 hz.le, this]
        · simp only [extPen, sub_zero, abs_zero]
          have h1 : z * q ≤ |z| * |q| := by rw [← abs_mul]; exact le_abs_self _
          have h2 : |z| * |q| ≤ mu * |q| := mul_le_mul_of_nonneg_right (by rw [abs_of_pos hz]; exact hm.le) (abs_nonneg q)
          linarith
      · refine ⟨z - mu, ?_, trivial, fun q _ => ?_⟩
        · have : ¬ (z - mu < 0) := by intro h; apply hm; linarith
          simp [ExtSet.proj, sign, stdMax, lt, ExtScalar.abs, abs_of_pos hz, hz, not_lt.2 hz.le, this]
        · simp only [extPen]
          have h1 : 0 ≤ z - mu := by linarith [not_lt.1 hm]
          rw [abs_of_nonneg h1]
          have := mul_le_mul_of_nonneg_left (le_abs_self q) hmu.le
          linarith

/-- the maximum of two numbers is below a bound only if both are -/
theorem stdMax_lt {a b t : K} (h : lt (stdMax (fin a) (fin b)) (fin t) = true) : a < t ∧ b < t := by
  unfold stdMax at h
  split_ifs at h with hab
  · have h1 : a < b := by simpa [lt] using hab
    have h2 : b < t := by simpa [lt] using h
    exact ⟨h1.trans h2, h2⟩
  · have h1 : b ≤ a := by simpa [lt] using hab
    have h2 : a < t := by simpa [lt] using h
    exact ⟨h2, h1.trans_lt h2⟩

/-! ### evaluation of runs -/

theorem extInner_stop (P : ExtCtx X K H n m) (S : Settings K) (st : ExtSt X K H m) (ev : ExtEval K n m)
    (hev : extEval P S st.mu st.rho st.target st.xOpt st.lamsOpt st.lamsPrev = some ev) (hok : ev.rhsOk = true)
    (hm : P.matrixOk st.hidden = true)
    (ht : le ev.innerCrit (fin st.innerTol) = true ∨ le (stdMax ev.prim ev.dual) (fin S.targetTol) = true) :
    extInner P S st = some (extAfterEval P st ev) := by
  rw [extInner, hev]
  simp only
  rw [if_neg (by simp [hok, hm]), if_pos ht]

theorem extInner_step (P : ExtCtx X K H n m) (S : Settings K) (st : ExtSt X K H m) (ev : ExtEval K n m) (o : ExtStepOut X K H m)
    (hev : extEval P S st.mu st.rho st.target st.xOpt st.lamsOpt st.lamsPrev = some ev) (hok : ev.rhsOk = true)
    (hm : P.matrixOk st.hidden = true)
    (ht : le ev.innerCrit (fin st.innerTol) = false ∧ le (stdMax ev.prim ev.dual) (fin S.targetTol) = false)
    (ho : P.step ⟨st.xOpt, st.lamsOpt, st.lamsPrev, st.target, st.mu, st.rho, (extAfterEval P st ev).hidden⟩ = some o)
    (hc : checkValue (List.ofFn o.lam) = false ∧ checkScalar o.merit = false) (hi : st.numIters + 1 < S.maxIters) :
    extInner P S st = extInner P S { extAfterEval P st ev with
      xOpt := o.x, lamsOpt := o.lam, lamsPlus := o.lamsPlus, lamsPdal := o.lamsPdal, hidden := o.hidden, numIters := st.numIters + 1 } := by
  conv_lhs => rw [extInner, hev]
  simp only
  rw [if_neg (by simp [hok, hm]), if_neg (by simp [ht.1, ht.2])]
  have : P.step ⟨(extAfterEval P st ev).xOpt, (extAfterEval P st ev).lamsOpt, (extAfterEval P st ev).lamsPrev,
      (extAfterEval P st ev).target, (extAfterEval P st ev).mu, (extAfterEval P st ev).rho, (extAfterEval P st ev).hidden⟩ = some o := ho
  rw [this]
  simp only
  rw [if_neg (by simp [hc.1, hc.2]), if_neg (by omega)]

theorem extOuter_success (P : ExtCtx X K H n m) (S : Settings K) (st s : ExtSt X K H m) (hb : st.numIters < S.maxIters ∧ st.alIters < S.maxAlIters)
    (h : extInner P S { st with resMu := st.mu, hidden := P.enterInner st.hidden } = some s)
    (ht : lt (stdMax s.prim s.dual) (fin S.targetTol) = true) :
    ∃ st', extOuter P S st = some st' ∧ st'.converged = .success ∧ st'.xOpt = s.xOpt ∧ st'.value = s.value ∧ st'.prim = s.prim := by
  obtain ⟨a1, a2, a3, a4, -⟩ := extAfterInner_same S s
  rw [extOuter, if_pos hb, h]
  simp only
  rw [if_pos (by rw [a2, a3]; exact ht)]
  exact ⟨_, rfl, rfl, a1, a4, a2⟩

/-- a starting point that passes the test is returned -/
theorem extSolve_first (P : ExtCtx X K H n m) (S : Settings K) (hi : 0 < S.maxIters) (ho : 0 < S.maxAlIters) (st : ExtSt X K H m) (x0 : X)
    (lams0 : Fin m → ExtScalar K) (ev : ExtEval K n m)
    (hev : extEval P S S.muInit S.rhoInit st.target x0 lams0 lams0 = some ev) (hok : ev.rhsOk = true)
    (hm : P.matrixOk (P.enterInner st.hidden) = true) (ht : lt (stdMax ev.prim ev.dual) (fin S.targetTol) = true) :
    ∃ st', extSolve P S st x0 lams0 = some st' ∧ st'.converged = .success ∧ st'.xOpt = x0 ∧ st'.value = ev.value ∧ st'.prim = ev.prim := by
  unfold extSolve
  generalize hs : ({ extTolFailure S { st with mu := S.muInit, rho := S.rhoInit, xOpt := x0, lamsOpt := lams0, lamsPrev := lams0 } with
    converged := .uninit, numIters := 0, alIters := 0 } : ExtSt X K H m) = s0
  have e : s0.mu = S.muInit ∧ s0.rho = S.rhoInit ∧ s0.target = st.target ∧ s0.xOpt = x0 ∧ s0.lamsOpt = lams0 ∧ s0.lamsPrev = lams0 ∧
      s0.hidden = st.hidden ∧ s0.numIters = 0 ∧ s0.alIters = 0 := by
    subst hs
    exact ⟨rfl, rfl, rfl, rfl, rfl, rfl, rfl, rfl, rfl⟩
  obtain ⟨e1, e2, e3, e4, e5, e6, e7, e8, e9⟩ := e
  have key := extInner_stop P S { s0 with resMu := s0.mu, hidden := P.enterInner s0.hidden } ev
    (by simp only [e1, e2, e3, e4, e5, e6]; exact hev) hok (by simp only [e7]; exact hm) (.inr (le_of_lt_ext ht))
  obtain ⟨st', h1, h2, h3, h4, h5⟩ := extOuter_success P S s0 _ ⟨by omega, by omega⟩ key ht
  exact ⟨st', h1, h2, h3.trans e4, h4, h5⟩

/-! ### steps with bad results -/

theorem checkValue_bad {k : ℕ} {f : Fin k → ExtScalar K} (h : ∃ i, ∀ a, f i ≠ fin a) : checkValue (List.ofFn f) = true := by
  obtain ⟨i, hi⟩ := h
  cases hc : checkValue (List.ofFn f) with
  | true => rfl
  | false =>
    obtain ⟨a, ha⟩ := checkValue_false hc (f i) (List.mem_ofFn.2 ⟨i, rfl⟩)
    exact absurd ha (hi a)

theorem checkScalar_bad {a : ExtScalar K} (h : ∀ b, a ≠ fin b) : checkScalar a = true := by
  cases a with
  | fin b => exact absurd rfl (h b)
  | _ => rfl

theorem extInner_bad (P : ExtCtx X K H n m) (S : Settings K)
    (hbad : ∀ i o, P.step i = some o → (∃ k, ∀ a, o.lam k ≠ fin a) ∨ ∀ a, o.merit ≠ fin a) (st st' : ExtSt X K H m)
    (h : extInner P S st = some st') : st'.xOpt = st.xOpt ∧ st'.numIters = st.numIters := by
  rw [extInner] at h
  cases hev : extEval P S st.mu st.rho st.target st.xOpt st.lamsOpt st.lamsPrev with
  | none => rw [hev] at h; simp at h
  | some ev =>
    rw [hev] at h
    simp only at h
    by_cases h1 : ev.rhsOk = false ∨ P.matrixOk st.hidden = false
    · rw [if_pos h1] at h; cases h
    rw [if_neg h1] at h
    by_cases h2 : le ev.innerCrit (fin st.innerTol) = true ∨ le (stdMax ev.prim ev.dual) (fin S.targetTol) = true
    · rw [if_pos h2] at h; cases h; exact ⟨rfl, rfl⟩
    · rw [if_neg h2] at h
      cases ho : P.step ⟨(extAfterEval P st ev).xOpt, (extAfterEval P st ev).lamsOpt, (extAfterEval P st ev).lamsPrev,
        (extAfterEval P st ev).target, (extAfterEval P st ev).mu, (extAfterEval P st ev).rho, (extAfterEval P st ev).hidden⟩ with
      | none => rw [ho] at h; simp at h
      | some o =>
        rw [ho] at h
        simp only at h
        rw [if_pos ((hbad _ o ho).imp checkValue_bad checkScalar_bad)] at h
        cases h

theorem extAfterInner_iters (S : Settings K) (st : ExtSt X K H m) : (extAfterInner S st).numIters = st.numIters := by
  unfold extAfterInner
  simp only
  split_ifs <;> rfl

theorem extOuter_bad (P : ExtCtx X K H n m) (S : Settings K)
    (hbad : ∀ i o, P.step i = some o → (∃ k, ∀ a, o.lam k ≠ fin a) ∨ ∀ a, o.merit ≠ fin a) : ∀ (st st' : ExtSt X K H m),
    extOuter P S st = some st' → st'.xOpt = st.xOpt ∧ st'.numIters = st.numIters := by
  intro st
  induction hk : S.maxAlIters - st.alIters using Nat.strong_induction_on generalizing st with
  | _ k ih =>
    intro st' h
    rw [extOuter] at h
    by_cases h0 : st.numIters < S.maxIters ∧ st.alIters < S.maxAlIters
    · rw [if_pos h0] at h
      cases hi : extInner P S { st with resMu := st.mu, hidden := P.enterInner st.hidden } with
      | none => rw [hi] at h; simp at h
      | some s =>
        rw [hi] at h
        simp only at h
        obtain ⟨b1, b2⟩ := extInner_bad P S hbad _ s hi
        have a1 := (extAfterInner_same S s).1
        have a2 := extAfterInner_iters S s
        split_ifs at h with h1
        · cases h
          exact ⟨a1.trans b1, a2.trans b2⟩
        · obtain ⟨c1, c2⟩ := ih (S.maxAlIters - (st.alIters + 1)) (by omega)
            { extAfterInner S s with rho := (extAfterInner S s).rho * S.rhoUpdateFactor, alIters := st.alIters + 1 } rfl st' h
          exact ⟨c1.trans (a1.trans b1), c2.trans (a2.trans b2)⟩
    · rw [if_neg h0] at h
      cases h
      exact ⟨rfl, rfl⟩

end ProxNLP
