import Verif.Lemmas.Newton
import Mathlib.Algebra.Order.BigOperators.Ring.Finset

/-! Helper lemmas for C115: the inner loop and the outer loop on a program with a smooth cost. -/

set_option linter.unusedSectionVars false
namespace ProxNLP

open Spec

variable {K : Type} {n m : ℕ} [Field K] [LinearOrder K] [IsStrictOrderedRing K]

theorem within_add {x0 x d : Fin n → K} {r s : K} (hr : 0 ≤ r) (hs : 0 ≤ s) (hx : InBall x0 r x) (hd : ∑ j, d j ^ 2 ≤ s ^ 2) :
    InBall x0 (r + s) (x + d) := by
  unfold InBall at hx ⊢
  have h1 : (∑ j, (x j - x0 j) * d j) ^ 2 ≤ (r * s) ^ 2 := by
    refine le_trans (Finset.sum_mul_sq_le_sq_mul_sq _ _ _) ?_
    rw [mul_pow]
    exact mul_le_mul hx hd (Finset.sum_nonneg fun _ _ => sq_nonneg _) (sq_nonneg _)
  have h2 : ∑ j, (x j - x0 j) * d j ≤ r * s := le_trans (le_abs_self _) (abs_le_of_sq_le_sq h1 (mul_nonneg hr hs))
  have h3 : ∑ j, ((x + d) j - x0 j) ^ 2 = ∑ j, (x j - x0 j) ^ 2 + 2 * ∑ j, (x j - x0 j) * d j + ∑ j, d j ^ 2 := by
    rw [Finset.mul_sum, ← Finset.sum_add_distrib, ← Finset.sum_add_distrib]
    exact Finset.sum_congr rfl fun j _ => by rw [Pi.add_apply]; ring
  rw [h3]
  nlinarith

theorem within_mono {x0 x : Fin n → K} {r s : K} (hr : 0 ≤ r) (hrs : r ≤ s) (hx : InBall x0 r x) : InBall x0 s x :=
  le_trans hx (pow_le_pow_left₀ hr hrs 2)

theorem newtonLength_bounds {h L δ : K} (hh : 0 < h) (hL : 0 ≤ L) (hδ : 0 ≤ δ) (hs : L * δ ≤ h) (k : ℕ) :
    0 ≤ newtonLength h L δ k ∧ newtonLength h L δ k ≤ δ ∧ 2 * newtonLength h L δ (k + 1) ≤ newtonLength h L δ k := by
  have key : ∀ a, 0 ≤ a → a ≤ δ → 2 * (L / (2 * h) * a ^ 2) ≤ a := by
    intro a h0 h1
    have h2 : L * a ≤ h := le_trans (mul_le_mul_of_nonneg_left h1 hL) hs
    have e : 2 * (L / (2 * h) * a ^ 2) = (L * a) / h * a := by field_simp
    rw [e]
    have : L * a / h ≤ 1 := (div_le_one hh).2 h2
    calc L * a / h * a ≤ 1 * a := mul_le_mul_of_nonneg_right this h0
      _ = a := one_mul a
  induction k with
  | zero => exact ⟨hδ, le_rfl, key _ hδ le_rfl⟩
  | succ k ih =>
    obtain ⟨h1, h2, h3⟩ := ih
    have h0 : 0 ≤ newtonLength h L δ (k + 1) := by
      show 0 ≤ L / (2 * h) * newtonLength h L δ k ^ 2
      positivity
    have h4 : newtonLength h L δ (k + 1) ≤ δ := by linarith
    exact ⟨h0, h4, key _ h0 h4⟩

/-- the inner criterion on the program -/
def smCrit (P : SmoothProgram K n m) (mu : K) (prev : Fin m → K) (x : Fin n → K) (lam : Fin m → K) : K :=
  max (inftyNorm (P.lagrangian x lam)) (inftyNorm (P.shifted mu prev x lam))

/-- the outer criterion on the program -/
def smOuter (P : SmoothProgram K n m) (x : Fin n → K) (lam : Fin m → K) : K :=
  max (inftyNorm (P.residual x)) (inftyNorm (P.lagrangian x lam))

/-- the state after `k` Newton steps -/
structure NewtonInv (P : SmoothProgram K n m) (x0 : Fin n → K) (h L δ mu : K) (prev : Fin m → K) (k : ℕ) (x : Fin n → K)
    (lam : Fin m → K) : Prop where
  near : InBall x0 (2 * δ - 2 * newtonLength h L δ k) x
  len : (∑ j, P.lagrangian x lam j ^ 2) / h ^ 2 + (∑ i, P.shifted mu prev x lam i ^ 2) / (2 * mu * h) ≤ newtonLength h L δ k ^ 2
  dual : 0 < k → ∀ i, P.shifted mu prev x lam i = 0

theorem NewtonInv.start {P : SmoothProgram K n m} {h L δ c1 mu : K} {prev : Fin m → K} {x : Fin n → K} {lam : Fin m → K}
    (hf : FastStart P h L δ c1 mu prev x lam) : NewtonInv P x h L δ mu prev 0 x lam where
  near := by
    show ∑ j, (x j - x j) ^ 2 ≤ _
    simp only [sub_self]
    rw [Finset.sum_eq_zero fun j _ => by ring]
    exact sq_nonneg _
  len := hf.first
  dual := fun h => absurd h (lt_irrefl _)

/-- residual after `k` steps -/
theorem NewtonInv.lag {P : SmoothProgram K n m} {x0 : Fin n → K} {h L δ mu : K} {prev : Fin m → K} {k : ℕ} {x : Fin n → K}
    {lam : Fin m → K} (hI : NewtonInv P x0 h L δ mu prev k x lam) (hh : 0 < h) (hmu : 0 < mu) :
    ∑ j, P.lagrangian x lam j ^ 2 ≤ (h * newtonLength h L δ k) ^ 2 := by
  have h1 : 0 ≤ (∑ i, P.shifted mu prev x lam i ^ 2) / (2 * mu * h) :=
    div_nonneg (Finset.sum_nonneg fun _ _ => sq_nonneg _) (by positivity)
  have h2 : (∑ j, P.lagrangian x lam j ^ 2) / h ^ 2 ≤ newtonLength h L δ k ^ 2 := by have := hI.len; linarith
  rw [div_le_iff₀ (by positivity)] at h2
  rw [mul_pow]
  linarith

theorem inftyNorm_le_of_sum {z : Fin n → K} {t : K} (ht : 0 ≤ t) (hz : ∑ j, z j ^ 2 ≤ t ^ 2) : inftyNorm z ≤ t :=
  (inftyNorm_le_iff _ _).2 ⟨ht, fun j => abs_le_of_sq_le_sq
    (le_trans (Finset.single_le_sum (f := fun j => z j ^ 2) (fun _ _ => sq_nonneg _) (Finset.mem_univ j)) hz) ht⟩

/-- the inner loop makes full Newton steps until one of its tests holds -/
theorem sm_inner (C : StepCfg (Fin n → K) K n m) (P : SmoothProgram K n m) (hP : IsSmooth C P) (hC : NewtonSolver C)
    (hret : ∀ i, ∃ o, stepFull C i = .ok o) (x0 : Fin n → K) (h L δ : K) (hδ : 0 ≤ δ) (hR : RegularOn P x0 (2 * δ) h L)
    (hs : L * δ ≤ h) (hA : L * δ ≤ 6 * h * (1 / 2 - C.ls.armijoC1)) (S : Settings K) (hb : S.pdalBeta = 1 / 2) (N : ℕ) (t : ℕ) :
    ∀ (k : ℕ) (st : St (Fin n → K) K (Hidden K n m) m), k + t = N → st.rho = 0 → st.setMu = st.mu → 0 < st.mu →
      NewtonInv P x0 h L δ st.mu st.lamsPrev k st.xOpt st.lamsOpt →
      (∀ x lam, NewtonInv P x0 h L δ st.mu st.lamsPrev N x lam → smCrit P st.mu st.lamsPrev x lam ≤ st.innerTol ∨
        smOuter P x lam ≤ S.targetTol) → st.numIters + t < S.maxIters →
      ∃ st' s, s ≤ t ∧ innerLoop (concreteCtx C) S st = .ok st' ∧ st'.numIters = st.numIters + s ∧ st'.converged = st.converged ∧
        NewtonInv P x0 h L δ st.mu st.lamsPrev (k + s) st'.xOpt st'.lamsOpt ∧ st'.prim = inftyNorm (P.residual st'.xOpt) ∧
        st'.dual = inftyNorm (P.lagrangian st'.xOpt st'.lamsOpt) ∧
        (smCrit P st.mu st.lamsPrev st'.xOpt st'.lamsOpt ≤ st.innerTol ∨ smOuter P st'.xOpt st'.lamsOpt ≤ S.targetTol) := by
  induction t with
  | zero =>
    intro k st hk hr hm hmu hI hN hn
    obtain ⟨ev, hev, e1, e2, e3, e4, e5, e6, e7⟩ := sm_eval C P hP S hb st.mu hmu st.target st.xOpt st.lamsOpt st.lamsPrev
    have eo : ev.outerCrit = smOuter P st.xOpt st.lamsOpt := by unfold EvalOut.outerCrit; rw [e5, e6]; rfl
    have hk' : k = N := by omega
    have hstop := hN _ _ (hk' ▸ hI)
    refine ⟨_, 0, le_rfl, innerLoop_stop (concreteCtx C) S st ev (by rw [hm, hr]; exact hev) (by rw [eo, e7]; exact hstop), rfl, rfl,
      hI, e5, e6, hstop⟩
  | succ t ih =>
    intro k st hk hr hm hmu hI hN hn
    obtain ⟨ev, hev, e1, e2, e3, e4, e5, e6, e7⟩ := sm_eval C P hP S hb st.mu hmu st.target st.xOpt st.lamsOpt st.lamsPrev
    have eo : ev.outerCrit = smOuter P st.xOpt st.lamsOpt := by unfold EvalOut.outerCrit; rw [e5, e6]; rfl
    by_cases hstop : smCrit P st.mu st.lamsPrev st.xOpt st.lamsOpt ≤ st.innerTol ∨ smOuter P st.xOpt st.lamsOpt ≤ S.targetTol
    · refine ⟨_, 0, Nat.zero_le _, innerLoop_stop (concreteCtx C) S st ev (by rw [hm, hr]; exact hev) (by rw [eo, e7]; exact hstop),
        rfl, rfl, hI, e5, e6, hstop⟩
    · obtain ⟨o, ho⟩ := hret (stepIn (afterEval (concreteCtx C) st ev) ev)
      obtain ⟨b1, b2, b3⟩ := newtonLength_bounds hR.pos hR.lip hδ hs k
      have hh : (afterEval (concreteCtx C) st ev).hidden.hess = P.hess st.xOpt ∧
          ∀ p ∈ (afterEval (concreteCtx C) st ev).hidden.vhps, p.2 = 0 := by
        show (hessUpdate C st.hidden st.xOpt ev.grad ev.lamsPdal).hess = _ ∧
          ∀ p ∈ (hessUpdate C st.hidden st.xOpt ev.grad ev.lamsPdal).vhps, _
        unfold hessUpdate
        rcases hP.approx with ha | ha <;> rw [ha] <;> exact ⟨hP.hess _, hP.vhp _ _⟩
      have hrad : 0 ≤ 2 * δ - 2 * newtonLength h L δ k := by linarith
      obtain ⟨d, g1, g2, g3, g4⟩ := sm_step C P hP hC x0 (2 * δ) h L hR (newtonLength h L δ k) b1
        (le_trans (mul_le_mul_of_nonneg_left b2 hR.lip) hA)
        (stepIn (afterEval (concreteCtx C) st ev) ev)
        { rho := hr, mu := hmu, setMu := hm, c := e1, grad := e2, jac := e3, merit := e4, hess := hh.1, vhps := hh.2 }
        (within_mono hrad (by linarith) hI.near)
        (fun d hd => within_mono (by linarith) (by linarith) (within_add hrad b1 hI.near hd))
        hI.len o ho
      have g1' : o.x = st.xOpt + d := g1
      have g4' : ∀ i, P.shifted st.mu st.lamsPrev o.x o.lam i = 0 := g4
      have hI' : NewtonInv P x0 h L δ st.mu st.lamsPrev (k + 1) o.x o.lam := by
        refine ⟨?_, ?_, fun _ => g4'⟩
        · rw [g1']
          refine within_mono (r := 2 * δ - 2 * newtonLength h L δ k + newtonLength h L δ k) (by linarith) (by linarith)
            (within_add hrad b1 hI.near g2)
        · have z : ∑ i, P.shifted st.mu st.lamsPrev o.x o.lam i ^ 2 = 0 :=
            Finset.sum_eq_zero fun i _ => by rw [g4' i]; ring
          rw [z, zero_div, add_zero, div_le_iff₀ (pow_pos hR.pos 2)]
          refine le_trans g3 (le_of_eq ?_)
          show _ = (L / (2 * h) * newtonLength h L δ k ^ 2) ^ 2 * h ^ 2
          have := hR.pos.ne'
          field_simp
      have hin : innerLoop (concreteCtx C) S st =
          innerLoop (concreteCtx C) S { acceptStep (afterEval (concreteCtx C) st ev) o with numIters := st.numIters + 1 } := by
        rw [innerLoop]
        have hev2 : evalAt (concreteCtx C) S st.mu st.setMu st.rho st.target st.xOpt st.lamsOpt st.lamsPrev = some ev := by
          rw [hm, hr]; exact hev
        rw [hev2]
        simp only
        rw [eo, show ev.innerCrit = smCrit P st.mu st.lamsPrev st.xOpt st.lamsOpt from e7, if_neg hstop]
        have ho' : (concreteCtx C).step (stepIn (afterEval (concreteCtx C) st ev) ev) = .ok o := ho
        rw [ho']
        simp only
        rw [if_neg (by omega)]
      obtain ⟨st', s, f1, f2, f3, f4, f5, f6, f7, f8⟩ := ih (k + 1)
        { acceptStep (afterEval (concreteCtx C) st ev) o with numIters := st.numIters + 1 } (by omega) hr hm hmu hI' hN (by
          show st.numIters + 1 + t < _; omega)
      refine ⟨st', s + 1, by omega, hin.trans f2, ?_, f4, ?_, f6, f7, f8⟩
      · rw [f3]; show st.numIters + 1 + s = _; omega
      · have : k + (s + 1) = k + 1 + s := by omega
        rw [this]; exact f5

/-- without constraints the invariant does not depend on the penalty and on the multipliers -/
theorem NewtonInv.free {P : SmoothProgram K n 0} {x0 : Fin n → K} {h L δ mu : K} {prev : Fin 0 → K} {k : ℕ} {x : Fin n → K}
    {lam : Fin 0 → K} (hI : NewtonInv P x0 h L δ mu prev k x lam) (mu' : K) (prev' lam' : Fin 0 → K) :
    NewtonInv P x0 h L δ mu' prev' k x lam' where
  near := hI.near
  len := by
    have := hI.len
    rw [Subsingleton.elim lam' lam]
    simpa using this
  dual := fun _ i => i.elim0

theorem inftyNorm_attained {z : Fin n → K} {t : K} (ht : 0 < t) (hz : inftyNorm z = t) : ∃ j, |z j| = t := by
  by_contra hc
  push Not at hc
  have : inftyNorm z < t := (inftyNorm_lt_iff _ _).2 ⟨ht, fun j => lt_of_le_of_ne (((inftyNorm_le_iff _ _).1 hz.le).2 j) (hc j)⟩
  exact absurd hz this.ne

/-- the outer loop on an unconstrained program -/
theorem sm_outer (C : StepCfg (Fin n → K) K n 0) (P : SmoothProgram K n 0) (hP : IsSmooth C P) (hC : NewtonSolver C)
    (hret : ∀ i, ∃ o, stepFull C i = .ok o) (x0 : Fin n → K) (h L δ : K) (hδ : 0 ≤ δ) (hR : RegularOn P x0 (2 * δ) h L)
    (hs : L * δ ≤ h) (hA : L * δ ≤ 6 * h * (1 / 2 - C.ls.armijoC1)) (S : Settings K) (hb : S.pdalBeta = 1 / 2) (hmu : 0 < S.muInit)
    (ht : 0 < S.targetTol) (N J : ℕ) (hN : h * newtonLength h L δ N ≤ S.targetTol) (hJ : innerTolAfter S J < S.targetTol)
    (hJm : J < S.maxAlIters) (hNm : N < S.maxIters) (a : ℕ) :
    ∀ st : St (Fin n → K) K (Hidden K n 0) 0, S.maxAlIters - st.alIters = a → st.alIters ≤ S.maxAlIters → st.rho = 0 →
      st.setMu = S.muInit → st.mu = S.muInit → S.targetTol ≤ st.primTol → st.innerTol = innerTolAfter S st.alIters →
      NewtonInv P x0 h L δ st.mu st.lamsPrev st.numIters st.xOpt st.lamsOpt → st.numIters ≤ N →
      (st.alIters ≤ J ∨ inftyNorm (P.grad st.xOpt) = S.targetTol) →
      ∃ st', outerLoop (concreteCtx C) S st = .ok st' ∧ st'.numIters ≤ N ∧ inftyNorm (P.grad st'.xOpt) ≤ S.targetTol ∧
        NewtonInv P x0 h L δ st'.mu st'.lamsPrev st'.numIters st'.xOpt st'.lamsOpt ∧
        ((st'.converged = .success ∧ inftyNorm (P.grad st'.xOpt) < S.targetTol) ∨
          (st'.converged = st.converged ∧ inftyNorm (P.grad st'.xOpt) = S.targetTol)) := by
  have hlag : ∀ (x : Fin n → K) (lam : Fin 0 → K), P.lagrangian x lam = P.grad x := by
    intro x lam; funext j; simp [SmoothProgram.lagrangian]
  have hres : ∀ x : Fin n → K, inftyNorm (P.residual x) = 0 := fun x => (inftyNorm_eq_zero_iff _).2 fun i => i.elim0
  have hsh : ∀ mu prev x lam, inftyNorm (P.shifted mu prev x lam) = 0 := fun mu prev x lam => (inftyNorm_eq_zero_iff _).2 fun i => i.elim0
  have hcrit : ∀ mu prev x lam, smCrit P mu prev x lam = inftyNorm (P.grad x) := by
    intro mu prev x lam
    unfold smCrit
    rw [hsh, hlag, max_eq_left (inftyNorm_nonneg _)]
  have hout : ∀ x lam, smOuter P x lam = inftyNorm (P.grad x) := by
    intro x lam
    unfold smOuter
    rw [hres, hlag, max_eq_right (inftyNorm_nonneg _)]
  induction a with
  | zero =>
    intro st ha hal hr hsm hm hpt hit hI hk hJ'
    have hx : inftyNorm (P.grad st.xOpt) = S.targetTol := by
      rcases hJ' with h1 | h1
      · omega
      · exact h1
    rw [outerLoop, if_neg (by omega)]
    exact ⟨st, rfl, hk, hx.le, hI, Or.inr ⟨rfl, hx⟩⟩
  | succ a ih =>
    intro st ha hal hr hsm hm hpt hit hI hk hJ'
    obtain ⟨st1, s, f1, f2, f3, f4, f5, f6, f7, f8⟩ := sm_inner C P hP hC hret x0 h L δ hδ hR hs hA S hb N (N - st.numIters)
      st.numIters (startOuter (concreteCtx C) st) (by omega) hr (hsm.trans hm.symm) (by show 0 < st.mu; rw [hm]; exact hmu) hI (by
        intro x lam hx
        right
        rw [hout]
        have b := newtonLength_bounds hR.pos hR.lip hδ hs N
        have := hx.lag hR.pos (by show 0 < st.mu; rw [hm]; exact hmu)
        rw [hlag] at this
        exact le_trans (inftyNorm_le_of_sum (mul_nonneg hR.pos.le b.1) this) hN) (by
        show st.numIters + (N - st.numIters) < _; omega)
    have fr := innerLoop_frame _ _ _ _ f2
    have g1 : st1.mu = S.muInit := fr.mu.trans hm
    have g2 : st1.primTol = st.primTol := fr.primTol
    have g3 : st1.innerTol = innerTolAfter S st.alIters := fr.innerTol.trans hit
    have g4 : st1.setMu = S.muInit := fr.setMu.trans hsm
    have g5 : st1.rho = 0 := fr.rho.trans hr
    have g6 : st1.numIters = st.numIters + s := f3
    have g7 : st1.alIters = st.alIters := fr.alIters
    rw [hres] at f6
    rw [hlag] at f7
    have hlt : st1.prim < st1.primTol := by rw [f6, g2]; exact lt_of_lt_of_le ht hpt
    have hI1 : ∀ mu prev lam, NewtonInv P x0 h L δ mu prev (afterInner S st1).numIters (afterInner S st1).xOpt lam := by
      intro mu prev lam
      rw [afterInner_numIters, afterInner_xOpt, g6]
      exact NewtonInv.free f5 _ _ _
    have hle : st1.numIters ≤ N := by omega
    rw [outerLoop, if_pos (by omega), f2]
    simp only
    by_cases hconv : max (afterInner S st1).prim (afterInner S st1).dual < S.targetTol
    · rw [if_pos hconv]
      have hg : inftyNorm (P.grad (afterInner S st1).xOpt) < S.targetTol := by
        rw [afterInner_prim, afterInner_dual, f7] at hconv
        rw [afterInner_xOpt]
        exact lt_of_le_of_lt (le_max_right _ _) hconv
      refine ⟨_, rfl, ?_, hg.le, hI1 _ _ _, Or.inl ⟨rfl, hg⟩⟩
      show (afterInner S st1).numIters ≤ N
      rw [afterInner_numIters]; exact hle
    · rw [if_neg hconv]
      have hge : S.targetTol ≤ inftyNorm (P.grad st1.xOpt) := by
        rw [afterInner_prim, afterInner_dual, f6, f7, max_eq_right (inftyNorm_nonneg _)] at hconv
        exact not_lt.1 hconv
      have hxo : (afterInner S st1).xOpt = st1.xOpt := afterInner_xOpt ..
      have hal' : st.alIters + 1 ≤ J ∨ inftyNorm (P.grad st1.xOpt) = S.targetTol := by
        rw [hcrit, hout] at f8
        rcases f8 with h1 | h1
        · rcases hJ' with h2 | h2
          · rcases Nat.lt_or_ge st.alIters J with h3 | h3
            · exact Or.inl h3
            · have : st.alIters = J := le_antisymm h2 h3
              have h4 : inftyNorm (P.grad st1.xOpt) ≤ innerTolAfter S J := by rw [← this, ← hit]; exact h1
              exact absurd (lt_of_le_of_lt h4 hJ) (not_lt.2 hge)
          · right
            obtain ⟨ev, hev, -, -, -, -, e5, e6, -⟩ := sm_eval C P hP S hb st.mu (by rw [hm]; exact hmu) st.target st.xOpt st.lamsOpt
              st.lamsPrev
            have eo : ev.outerCrit = smOuter P st.xOpt st.lamsOpt := by unfold EvalOut.outerCrit; rw [e5, e6]; rfl
            have hin := innerLoop_stop (concreteCtx C) S (startOuter (concreteCtx C) st) ev
              (by
                show evalAt (concreteCtx C) S st.mu st.setMu st.rho st.target st.xOpt st.lamsOpt st.lamsPrev = _
                rw [hsm, hm.symm, hr]; exact hev) (Or.inr (by rw [eo, hout]; exact h2.le))
            rw [hin] at f2
            cases f2
            exact h2
        · exact Or.inr (le_antisymm h1 hge)
      obtain ⟨st', k1, k2, k3, k4, k5⟩ := ih
        { setProxParameter (afterInner S st1) ((afterInner S st1).rho * S.rhoUpdateFactor) with alIters := st.alIters + 1 }
        (by show S.maxAlIters - (st.alIters + 1) = a; omega) (by show st.alIters + 1 ≤ _; omega)
        (by show (afterInner S st1).rho * S.rhoUpdateFactor = 0; rw [afterInner_rho, g5, zero_mul]) 
        (by
          show (afterInner S st1).setMu = _
          unfold afterInner
          simp only
          rw [if_pos hlt]
          simp only [updateToleranceSuccess, tolerancePostUpdate, acceptMultipliers]
          cases S.mode <;> exact g4)
        (by
          show (afterInner S st1).mu = _
          unfold afterInner
          simp only
          rw [if_pos hlt]
          simp only [updateToleranceSuccess, tolerancePostUpdate, acceptMultipliers]
          cases S.mode <;> exact g1)
        (by
          show S.targetTol ≤ (afterInner S st1).primTol
          unfold afterInner
          simp only
          rw [if_pos hlt]
          simp only [updateToleranceSuccess, tolerancePostUpdate, acceptMultipliers]
          cases S.mode <;> exact le_max_right _ _)
        (by
          show (afterInner S st1).innerTol = innerTolAfter S (st.alIters + 1)
          unfold afterInner
          simp only
          rw [if_pos hlt]
          simp only [updateToleranceSuccess, tolerancePostUpdate, acceptMultipliers, innerTolAfter]
          cases S.mode <;> simp only [g1, g3])
        (hI1 _ _ _)
        (by show (afterInner S st1).numIters ≤ N; rw [afterInner_numIters]; exact hle)
        (by show _ ∨ inftyNorm (P.grad (afterInner S st1).xOpt) = _; rw [hxo]; exact hal')
      refine ⟨st', k1, k2, k3, k4, ?_⟩
      rcases k5 with k5 | ⟨k5, k6⟩
      · exact Or.inl k5
      · refine Or.inr ⟨k5.trans ?_, k6⟩
        show (afterInner S st1).converged = _
        rw [afterInner_converged, f4]; rfl

end ProxNLP
