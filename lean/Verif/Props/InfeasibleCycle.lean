import Verif.Props.Infeasible
import Verif.Props.PenaltyCycle

/-! Further theorems for C113: what a run on an infeasible problem does. -/

set_option linter.unusedSectionVars false
namespace ProxNLP

open Spec

variable {X K H : Type} {n m : ℕ} [Field K] [LinearOrder K] [IsStrictOrderedRing K]

theorem afterInner_lamsPrev_of_fail (S : Settings K) (st : St X K H m) (h : st.primTol ≤ st.prim) : (afterInner S st).lamsPrev = st.lamsPrev := by
  unfold afterInner
  simp only
  rw [if_neg (not_lt.2 h)]
  unfold updatePenalty
  simp only
  split <;> rfl

/-- the outer loop when every residual is at least `delta` and the tolerances are at most `delta`: every recorded residual is at least `delta`,
and no multiplier is accepted -/
theorem outer_fails (P : Ctx X K H n m) (S : Settings K) (hle : S.muLower ≤ S.muInit) (hf1 : S.muUpdateFactor ≤ 1) (hlow : 0 < S.muLower)
    (delta : K) (hQ : EveryResidual P S fun p _ => delta ≤ p)
    (htol : ∀ mu, S.muLower ≤ mu → mu ≤ S.muInit → S.primTol0 * S.pow mu S.primAlpha ≤ delta) (ht : S.targetTol ≤ delta)
    (st st' : St X K H m) (h : outerLoop P S st = .ok st') (hset : st.setMu = st.mu) (h1 : S.muLower ≤ st.mu) (h2 : st.mu ≤ S.muInit)
    (h3 : st.primTol ≤ delta) (h4 : ∀ e ∈ st.endLog, delta ≤ e.prim) :
    (∀ e ∈ st'.endLog, delta ≤ e.prim) ∧ st'.lamsPrev = st.lamsPrev := by
  refine outerLoop_ind P S (R := fun st st' => st.setMu = st.mu → S.muLower ≤ st.mu → st.mu ≤ S.muInit → st.primTol ≤ delta →
    (∀ e ∈ st.endLog, delta ≤ e.prim) → (∀ e ∈ st'.endLog, delta ≤ e.prim) ∧ st'.lamsPrev = st.lamsPrev) ?_ ?_ ?_ st st' h hset h1 h2 h3 h4
  · intro st _ _ _ _ _ h4; exact ⟨h4, rfl⟩
  · intro st st1 _ _ hin _ hs h1 h2 h3 h4
    have hf := innerLoop_frame P S _ _ hin
    have hp := inner_residuals P S _ hQ _ _ hin hs h1 h2
    have hpt : st1.primTol = st.primTol := hf.primTol
    refine ⟨fun e he => ?_, ?_⟩
    · have he : e ∈ (afterInner S st1).endLog := he
      rw [afterInner_endLog, hf.endLog, List.mem_append, List.mem_singleton] at he
      rcases he with he | rfl
      · exact h4 e he
      · exact hp
    · show (afterInner S st1).lamsPrev = _
      rw [afterInner_lamsPrev_of_fail S st1 (by rw [hpt]; exact h3.trans hp), hf.lamsPrev]; rfl
  · intro st st1 st' _ _ hin _ _ ih hs h1 h2 h3 h4
    have hf := innerLoop_frame P S _ _ hin
    have hm : st1.mu = st.mu := hf.mu
    have hp := inner_residuals P S _ hQ _ _ hin hs h1 h2
    have hpt : st1.primTol = st.primTol := hf.primTol
    have hfail : ¬ st1.prim < st1.primTol := not_lt.2 (by rw [hpt]; exact h3.trans hp)
    have m1 : S.muLower ≤ (afterInner S st1).mu := by
      rw [afterInner_mu, if_neg hfail]
      split
      · exact hle
      · exact le_max_right _ _
    have m2 : (afterInner S st1).mu ≤ S.muInit := by
      rw [afterInner_mu, hm, if_neg hfail]
      split
      · exact le_rfl
      · refine max_le (le_trans ?_ h2) hle
        have : 0 ≤ st.mu := hlow.le.trans h1
        nlinarith
    obtain ⟨r1, r2⟩ := ih (afterInner_setMu S st1 (by rw [hf.setMu, hf.mu]; exact hs)) m1 m2
      (by
        show (afterInner S st1).primTol ≤ delta
        rw [afterInner_primTol, if_neg hfail]
        exact max_le (htol _ m1 m2) ht)
      (fun e he => by
        have he : e ∈ (afterInner S st1).endLog := he
        rw [afterInner_endLog, hf.endLog, List.mem_append, List.mem_singleton] at he
        rcases he with he | rfl
        · exact h4 e he
        · exact hp)
    refine ⟨r1, r2.trans ?_⟩
    show (afterInner S st1).lamsPrev = _
    rw [afterInner_lamsPrev_of_fail S st1 (by rw [hpt]; exact h3.trans hp), hf.lamsPrev]; rfl

/-- **C113, the course of the run.**  If at every point some constraint is violated by at least `delta`, and no tolerance of the schedule exceeds
`delta`, then no outer iteration is ever successful: the multipliers around which the method works are those of the call until the end, each
outer iteration ends with a primal infeasibility of at least `delta`, and penalty and tolerances run through the cycle of C17 and C18 with
period `p + 1`, for as many outer iterations as the budget allows. -/
theorem C113_infeasible_course (P : Ctx X K H n m) (leaf : Fin m → LeafSet K × ℕ) (hsets : P.sets = StackedSet.ofLeaves leaf)
    (hbox : ∀ i lo hi, (leaf i).1 = .box lo hi → lo (leaf i).2 ≤ hi (leaf i).2) (delta : K) (hfar : FarFromFeasible P leaf delta)
    (S : Settings K) (hlow : 0 < S.muLower) (hle : S.muLower ≤ S.muInit) (hf1 : S.muUpdateFactor ≤ 1)
    (htol : ∀ mu, S.muLower ≤ mu → mu ≤ S.muInit → S.primTol0 * S.pow mu S.primAlpha ≤ delta) (ht : S.targetTol ≤ delta)
    (p : ℕ) (hp : S.muInit * S.muUpdateFactor ^ p ≤ S.muLower) (hp' : ∀ q < p, S.muLower < S.muInit * S.muUpdateFactor ^ q)
    (st st' : St X K H m) (x0 : X) (lams0 : Fin m → K) (h : solve P S st x0 m lams0 = .ok st') :
    (∀ e ∈ st'.endLog, delta ≤ e.prim) ∧ st'.lamsPrev = lams0 ∧
    ∀ i r, st'.outerLog[i]? = some r →
      r.mu = max (S.muInit * S.muUpdateFactor ^ (i % (p + 1))) S.muLower ∧
      r.primTol = max (S.primTol0 * S.pow (max (S.muInit * S.muUpdateFactor ^ (i % (p + 1))) S.muLower) S.primAlpha) S.targetTol ∧
      r.innerTol = max (S.innerTol0 * S.pow (max (S.muInit * S.muUpdateFactor ^ (i % (p + 1))) S.muLower) S.dualAlpha) S.innerTolMin := by
  have hQ : EveryResidual P S fun p _ => delta ≤ p := by
    intro x lam mu f c _ _ he
    obtain ⟨i, hi⟩ := hfar x f c he
    have hv : ValidAt (leaf i).1 (leaf i).2 := by
      have := hbox i
      cases hl : (leaf i).1 with
      | box lo hi => exact this lo hi hl
      | _ => trivial
    refine le_trans (hi _ ((rowMem_iff _ _ _).2 (projAt_mem _ mu _ (c i + mu * lam i) hv))) ?_
    have := ((inftyNorm_le_iff (fun i => c i - P.sets.projection mu (fun j => c j + mu * lam j) i) _).1 le_rfl).2 i
    rw [hsets] at this ⊢
    exact this
  have key : (∀ e ∈ st'.endLog, delta ≤ e.prim) ∧ st'.lamsPrev = lams0 := by
    obtain ⟨_, stf, hf, rfl⟩ := solve_ok P S st x0 m lams0 st' h
    obtain ⟨-, e1, -, -, -, -, -, e2, e3, -, -, -, -, -, e4, -⟩ := initSolve_outerLog S st x0 m lams0
    obtain ⟨r1, r2⟩ := outer_fails P S hle hf1 hlow delta hQ htol ht _ stf hf (by rw [e2, e3]) (by rw [e2]; exact hle) (by rw [e2])
      (by rw [e4]; exact max_le (htol _ hle le_rfl) ht) (by rw [e1]; intro e he; cases he)
    refine ⟨r1, r2.trans ?_⟩
    unfold initSolve
    simp only
    rw [dif_pos trivial]
    rfl
  obtain ⟨k1, k2⟩ := key
  refine ⟨k1, k2, ?_⟩
  obtain ⟨s1, -, -, hlen⟩ := C17_penalty_safeguards P S st st' x0 m lams0 h hlow hle hf1
  obtain ⟨t0, t1⟩ := C18_tolerance_schedule P S st st' x0 m lams0 h
  have hsmall : ∀ (j : ℕ) (r : OuterRec X K), st'.outerLog[j]? = some r → r.primTol ≤ delta := by
    intro j
    induction j with
    | zero => intro r hr; rw [(t0 r hr).1]; exact max_le (htol _ hle le_rfl) ht
    | succ j ih =>
      intro r hr
      have hlt := (List.getElem?_eq_some_iff.1 hr).1
      have h1 : st'.outerLog[j]? = some st'.outerLog[j] := List.getElem?_eq_getElem _
      have h2 : st'.endLog[j]? = some st'.endLog[j] := List.getElem?_eq_getElem _
      obtain ⟨b1, b2, -⟩ := s1 r (List.mem_of_getElem? hr)
      rw [((t1 j _ _ r h1 h2 hr).2 ((ih _ h1).trans (k1 _ (List.mem_of_getElem? h2)))).1]
      exact max_le (htol _ b1 b2) ht
  intro i r hr
  have hinf : ∀ j < i, ∀ r e, st'.outerLog[j]? = some r → st'.endLog[j]? = some e → r.primTol ≤ e.prim :=
    fun j _ r e hr he => (hsmall j r hr).trans (k1 e (List.mem_of_getElem? he))
  exact ⟨C17_penalty_cycle P S st st' x0 m lams0 h hlow hle hf1 p hp hp' i r hr hinf,
    C18_infeasible_cycle P S st st' x0 m lams0 h hlow hle hf1 p hp hp' i r hr hinf⟩

/-- settings for the example: the tolerances stay at 1/4 -/
def Demo.clashSettings : Settings ℚ :=
  { Demo.qpSettings with primTol0 := 1 / 4, innerTol0 := 10, muLower := 1 / 100000, maxAlIters := 5 }

/-- non-vacuity: on `x = 0, x = 1` the method runs its five outer iterations with penalties that return to the first value -/
example : ∃ st', solve (concreteCtx Demo.clashCfg) Demo.clashSettings (Demo.qpReady Demo.clashCfg Demo.clashSettings) ![7] 2 ![3, 4] = .ok st' ∧
    st'.outerLog.map (·.mu) = [1 / 100, 1 / 10000, 1 / 100000, 1 / 100, 1 / 10000] ∧ st'.lamsPrev = ![3, 4] ∧
    ∀ e ∈ st'.endLog, 1 / 2 ≤ e.prim := by
  obtain ⟨a, ha, hpa⟩ := checkSolve_sound (concreteCtx Demo.clashCfg) Demo.clashSettings 40
    (Demo.qpReady Demo.clashCfg Demo.clashSettings) ![7] 2 ![3, 4]
    (fun s => decide (s.outerLog.map (·.mu) = [1 / 100, 1 / 10000, 1 / 100000, 1 / 100, 1 / 10000])) (by decide +kernel)
  obtain ⟨c1, c2, -⟩ := C113_infeasible_course _ Demo.clashLeaf rfl (by intro i lo hi h; simp [Demo.clashLeaf] at h) _ Demo.clash_far
    Demo.clashSettings (by norm_num [Demo.clashSettings]) (by norm_num [Demo.clashSettings, Demo.qpSettings])
    (by norm_num [Demo.clashSettings, Demo.qpSettings]) (by intro mu _ _; norm_num [Demo.clashSettings, Demo.qpSettings])
    (by norm_num [Demo.clashSettings, Demo.qpSettings]) 2 (by norm_num [Demo.clashSettings, Demo.qpSettings])
    (by intro q hq; have : q = 0 ∨ q = 1 := by omega
        rcases this with rfl | rfl <;> norm_num [Demo.clashSettings, Demo.qpSettings]) _ _ _ _ ha
  exact ⟨a, ha, of_decide_eq_true hpa, c2, c1⟩

end ProxNLP
