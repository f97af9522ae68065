import Verif.Props.Solver
import Mathlib.Algebra.Order.Archimedean.Basic

/-! Further theorems for C17 and C18: the values of the penalty and of the tolerances along a run. -/

set_option linter.unusedSectionVars false
namespace ProxNLP

variable {X K H : Type} [Field K] [LinearOrder K] [IsStrictOrderedRing K] {n m : ℕ}

/-- **C17, a run that stays infeasible.** As long as no outer iteration meets its primal tolerance the penalty runs through a cycle:
`mu_init, mu_init f, mu_init f², …`, down to `mu_lower`, and then starts again at `mu_init`. With `p` the number of reductions needed to
reach `mu_lower`, iteration `i` uses `max (mu_init f^(i mod (p + 1))) mu_lower`. -/
theorem C17_penalty_cycle (P : Ctx X K H n m) (S : Settings K) (st st' : St X K H m) (x0 : X) (k : ℕ) (lams0 : Fin k → K)
    (h : solve P S st x0 k lams0 = .ok st') (hlow : 0 < S.muLower) (hle : S.muLower ≤ S.muInit) (hf1 : S.muUpdateFactor ≤ 1)
    (p : ℕ) (hp : S.muInit * S.muUpdateFactor ^ p ≤ S.muLower) (hp' : ∀ q < p, S.muLower < S.muInit * S.muUpdateFactor ^ q)
    (i : ℕ) (r : OuterRec X K) (hr : st'.outerLog[i]? = some r)
    (hinf : ∀ j < i, ∀ r e, st'.outerLog[j]? = some r → st'.endLog[j]? = some e → r.primTol ≤ e.prim) :
    r.mu = max (S.muInit * S.muUpdateFactor ^ (i % (p + 1))) S.muLower := by
  obtain ⟨-, s0, -, s3⟩ := C17_penalty_safeguards P S st st' x0 k lams0 h hlow hle hf1
  induction i generalizing r with
  | zero => rw [s0 r hr, Nat.zero_mod, pow_zero, mul_one, max_eq_left hle]
  | succ i ih =>
    have hlt := (List.getElem?_eq_some_iff.1 hr).1
    have h1 : st'.outerLog[i]? = some st'.outerLog[i] := List.getElem?_eq_getElem _
    have h2 : st'.endLog[i]? = some st'.endLog[i] := List.getElem?_eq_getElem _
    obtain ⟨-, u1, u2⟩ := C17_penalty_update P S st st' x0 k lams0 h i _ _ r h1 h2 hr
    have hprev := ih _ h1 fun j hj => hinf j (by omega)
    have hbad := hinf i (by omega) _ _ h1 h2
    have hmod : i % (p + 1) < p + 1 := Nat.mod_lt _ (by omega)
    by_cases hq : i % (p + 1) = p
    · have e : st'.outerLog[i].mu = S.muLower := by rw [hprev, hq, max_eq_right hp]
      have e2 : (i + 1) % (p + 1) = 0 := by rw [Nat.add_mod, hq]; cases p <;> simp
      rw [u2 hbad e, e2, pow_zero, mul_one, max_eq_left hle]
    · have hq' : i % (p + 1) < p := by omega
      have e : st'.outerLog[i].mu = S.muInit * S.muUpdateFactor ^ (i % (p + 1)) := by rw [hprev, max_eq_left (hp' _ hq').le]
      have e2 : (i + 1) % (p + 1) = i % (p + 1) + 1 := by
        rw [Nat.add_mod, Nat.mod_eq_of_lt (show 1 < p + 1 by omega), Nat.mod_eq_of_lt (by omega)]
      rw [u1 hbad (by rw [e]; exact (hp' _ hq').ne'), e, e2, pow_succ, mul_assoc]

/-- the length of the cycle exists whenever the update factor is less than 1 -/
theorem C17_penalty_cycle_length [Archimedean K] (S : Settings K) (hlow : 0 < S.muLower) (hle : S.muLower ≤ S.muInit) (hf1 : S.muUpdateFactor < 1) :
    ∃ p, S.muInit * S.muUpdateFactor ^ p ≤ S.muLower ∧ ∀ q < p, S.muLower < S.muInit * S.muUpdateFactor ^ q := by
  have hex : ∃ p, S.muInit * S.muUpdateFactor ^ p ≤ S.muLower := by
    have hi : 0 < S.muInit := lt_of_lt_of_le hlow hle
    obtain ⟨p, hp⟩ := exists_pow_lt_of_lt_one (div_pos hlow hi) hf1
    refine ⟨p, ?_⟩
    rw [lt_div_iff₀ hi] at hp
    linarith
  classical
  exact ⟨Nat.find hex, Nat.find_spec hex, fun q hq => not_le.1 (Nat.find_min hex hq)⟩

/-- the hypotheses are met by a run of five outer iterations on an infeasible problem: the penalty returns to its first value -/
example : ∃ st', solve Demo.infeasible { Demo.settings (1 / 100) (1 / 100) .newton 100 5 with innerTol0 := 10000000, muLower := 1 / 100000 }
    (Demo.ready Demo.infeasible (Demo.settings (1 / 100) (1 / 100) .newton 100 5)) 0 1 (fun _ => 0) = .ok st' ∧
    st'.outerLog.map (·.mu) = [1 / 100, 1 / 10000, 1 / 100000, 1 / 100, 1 / 10000] ∧
    ∀ j < 5, ∀ r e, st'.outerLog[j]? = some r → st'.endLog[j]? = some e → r.primTol ≤ e.prim := by
  obtain ⟨st', h, hp⟩ := checkSolve_sound Demo.infeasible
    { Demo.settings (1 / 100) (1 / 100) .newton 100 5 with innerTol0 := 10000000, muLower := 1 / 100000 } 30
    (Demo.ready Demo.infeasible (Demo.settings (1 / 100) (1 / 100) .newton 100 5)) 0 1 (fun _ => 0)
    (fun s => decide (s.outerLog.map (·.mu) = [1 / 100, 1 / 10000, 1 / 100000, 1 / 100, 1 / 10000] ∧
      s.outerLog.length = 5 ∧ s.endLog.length = 5 ∧
      (List.zip s.outerLog s.endLog).all fun x => decide (x.1.primTol ≤ x.2.prim))) (by decide +kernel)
  obtain ⟨h1, -, -, h2⟩ := of_decide_eq_true hp
  refine ⟨st', h, h1, fun j _ r e hr he => ?_⟩
  have := List.all_eq_true.1 h2 (r, e) (List.mem_of_getElem? (i := j) (by rw [List.getElem?_zip_eq_some]; exact ⟨hr, he⟩))
  exact of_decide_eq_true this

example : (1 / 100 : ℚ) * (1 / 100) ^ 2 ≤ 1 / 100000 ∧ ∀ q < 2, (1 / 100000 : ℚ) < 1 / 100 * (1 / 100) ^ q := by decide +kernel

/-! ### C18: the values of the tolerances -/

/-- **C18, the schedule.** The tolerances of the first outer iteration, of one that follows an iteration that met its primal tolerance, and
of one that follows an iteration that did not. -/
theorem C18_tolerance_schedule (P : Ctx X K H n m) (S : Settings K) (st st' : St X K H m) (x0 : X) (k : ℕ) (lams0 : Fin k → K)
    (h : solve P S st x0 k lams0 = .ok st') :
    (∀ r, st'.outerLog[0]? = some r → r.primTol = max (S.primTol0 * S.pow S.muInit S.primAlpha) S.targetTol ∧
      r.innerTol = max (S.innerTol0 * S.pow S.muInit S.dualAlpha) S.innerTolMin) ∧
    ∀ i r e r', st'.outerLog[i]? = some r → st'.endLog[i]? = some e → st'.outerLog[i + 1]? = some r' →
      (e.prim < r.primTol → r'.primTol = max (r.primTol * S.pow (r.mu / S.muUpper) S.primBeta) S.targetTol ∧
        r'.innerTol = max (r.innerTol * S.pow (r.mu / S.muUpper) S.dualBeta) S.innerTolMin) ∧
      (r.primTol ≤ e.prim → r'.primTol = max (S.primTol0 * S.pow r'.mu S.primAlpha) S.targetTol ∧
        r'.innerTol = max (S.innerTol0 * S.pow r'.mu S.dualAlpha) S.innerTolMin) := by
  obtain ⟨_, stf, hf, rfl⟩ := solve_ok P S st x0 k lams0 st' h
  obtain ⟨i1, i2, _, _, _, _, _, _, _, _, _, _, _, _, i15, i16⟩ := initSolve_outerLog S st x0 k lams0
  obtain ⟨-, b, c, -⟩ := outerLoop_links P S _ stf hf (by rw [i1, i2]; rfl) (by rw [i2]; intro k r e r' _ h; simp at h)
  refine ⟨fun r hr => ?_, fun i r e r' h1 h2 h3 => ?_⟩
  · rw [c i1 r hr]; exact ⟨i15, i16⟩
  · have hl := b i r e r' h1 h2 h3
    refine ⟨fun hc => ⟨by rw [hl.primTol, if_pos hc], by rw [hl.innerTol, if_pos hc]⟩,
      fun hc => ⟨by rw [hl.primTol, if_neg (not_lt.2 hc)], by rw [hl.innerTol, if_neg (not_lt.2 hc)]⟩⟩

/-- one end record for every start record -/
theorem solve_logs_length (P : Ctx X K H n m) (S : Settings K) (st st' : St X K H m) (x0 : X) (k : ℕ) (lams0 : Fin k → K)
    (h : solve P S st x0 k lams0 = .ok st') : st'.endLog.length = st'.outerLog.length := by
  obtain ⟨_, stf, hf, rfl⟩ := solve_ok P S st x0 k lams0 st' h
  obtain ⟨i1, i2, -⟩ := initSolve_outerLog S st x0 k lams0
  exact (outerLoop_links P S _ stf hf (by rw [i1, i2]; rfl) (by rw [i2]; intro k r e r' _ h; simp at h)).1

/-- one more reduction below a floor -/
theorem max_mul_pow_step (t q T : K) (s : ℕ) (hq0 : 0 ≤ q) (hq1 : q ≤ 1) (hT : 0 ≤ T) :
    max (max (t * q ^ s) T * q) T = max (t * q ^ (s + 1)) T := by
  rw [max_mul_of_nonneg _ _ hq0, max_assoc, max_eq_right (mul_le_of_le_one_right hT hq1), pow_succ, mul_assoc]

/-- **C18, a streak of feasible iterations.** While every outer iteration meets its primal tolerance the penalty stays and the primal
tolerance falls geometrically to `target_tol`: after `s` such iterations it is the maximum of `target_tol` and the value at the start of the
streak times the `s`-th power of `pow(mu / mu_upper, prim_beta)`; the same for the inner tolerance with `dual_beta` and `inner_tol_min`. -/
theorem C18_feasible_streak (P : Ctx X K H n m) (S : Settings K) (st st' : St X K H m) (x0 : X) (k : ℕ) (lams0 : Fin k → K)
    (h : solve P S st x0 k lams0 = .ok st') (a : ℕ) (r : OuterRec X K) (hr : st'.outerLog[a]? = some r)
    (hT : 0 ≤ S.targetTol) (hT' : 0 ≤ S.innerTolMin)
    (hq : 0 ≤ S.pow (r.mu / S.muUpper) S.primBeta ∧ S.pow (r.mu / S.muUpper) S.primBeta ≤ 1)
    (hq' : 0 ≤ S.pow (r.mu / S.muUpper) S.dualBeta ∧ S.pow (r.mu / S.muUpper) S.dualBeta ≤ 1)
    (s : ℕ) (r' : OuterRec X K) (hr' : st'.outerLog[a + s]? = some r')
    (hok : ∀ j, a ≤ j → j < a + s → ∀ r e, st'.outerLog[j]? = some r → st'.endLog[j]? = some e → e.prim < r.primTol) :
    r'.mu = r.mu ∧ r'.primTol = max (r.primTol * S.pow (r.mu / S.muUpper) S.primBeta ^ s) S.targetTol ∧
      r'.innerTol = max (r.innerTol * S.pow (r.mu / S.muUpper) S.dualBeta ^ s) S.innerTolMin := by
  have hlen := solve_logs_length P S st st' x0 k lams0 h
  induction s generalizing r' with
  | zero =>
    obtain ⟨f1, f2⟩ := (C18_tolerance_safeguards P S st st' x0 k lams0 h).1 r (List.mem_of_getElem? hr)
    rw [Nat.add_zero, hr] at hr'
    cases hr'
    exact ⟨rfl, by rw [pow_zero, mul_one, max_eq_left f2], by rw [pow_zero, mul_one, max_eq_left f1]⟩
  | succ s ih =>
    have hlt : a + s < st'.outerLog.length := Nat.lt_of_succ_lt (List.getElem?_eq_some_iff.1 hr').1
    have h1 : st'.outerLog[a + s]? = some st'.outerLog[a + s] := List.getElem?_eq_getElem _
    have h2 : st'.endLog[a + s]? = some st'.endLog[a + s] := List.getElem?_eq_getElem _
    obtain ⟨m1, m2, m3⟩ := ih _ h1 fun j hj hj' => hok j hj (by omega)
    have hc := hok (a + s) (by omega) (by omega) _ _ h1 h2
    obtain ⟨t1, t2⟩ := ((C18_tolerance_schedule P S st st' x0 k lams0 h).2 (a + s) _ _ r' h1 h2 hr').1 hc
    have t3 := (C17_penalty_update P S st st' x0 k lams0 h (a + s) _ _ r' h1 h2 hr').1 hc
    refine ⟨t3.trans m1, ?_, ?_⟩
    · rw [t1, m1, m2, max_mul_pow_step _ _ _ _ hq.1 hq.2 hT]
    · rw [t2, m1, m3, max_mul_pow_step _ _ _ _ hq'.1 hq'.2 hT']

/-- **C18, a run that stays infeasible.** The tolerances repeat the cycle of the penalty (C17): they are not driven to their floors. -/
theorem C18_infeasible_cycle (P : Ctx X K H n m) (S : Settings K) (st st' : St X K H m) (x0 : X) (k : ℕ) (lams0 : Fin k → K)
    (h : solve P S st x0 k lams0 = .ok st') (hlow : 0 < S.muLower) (hle : S.muLower ≤ S.muInit) (hf1 : S.muUpdateFactor ≤ 1)
    (p : ℕ) (hp : S.muInit * S.muUpdateFactor ^ p ≤ S.muLower) (hp' : ∀ q < p, S.muLower < S.muInit * S.muUpdateFactor ^ q)
    (i : ℕ) (r : OuterRec X K) (hr : st'.outerLog[i]? = some r)
    (hinf : ∀ j < i, ∀ r e, st'.outerLog[j]? = some r → st'.endLog[j]? = some e → r.primTol ≤ e.prim) :
    r.primTol = max (S.primTol0 * S.pow (max (S.muInit * S.muUpdateFactor ^ (i % (p + 1))) S.muLower) S.primAlpha) S.targetTol ∧
    r.innerTol = max (S.innerTol0 * S.pow (max (S.muInit * S.muUpdateFactor ^ (i % (p + 1))) S.muLower) S.dualAlpha) S.innerTolMin := by
  rw [← C17_penalty_cycle P S st st' x0 k lams0 h hlow hle hf1 p hp hp' i r hr hinf]
  obtain ⟨t0, t1⟩ := C18_tolerance_schedule P S st st' x0 k lams0 h
  obtain ⟨-, s0, -, s3⟩ := C17_penalty_safeguards P S st st' x0 k lams0 h hlow hle hf1
  cases i with
  | zero => rw [s0 r hr]; exact t0 r hr
  | succ i =>
    have hlt := (List.getElem?_eq_some_iff.1 hr).1
    have h1 : st'.outerLog[i]? = some st'.outerLog[i] := List.getElem?_eq_getElem _
    have h2 : st'.endLog[i]? = some st'.endLog[i] := List.getElem?_eq_getElem _
    exact (t1 i _ _ r h1 h2 hr).2 (hinf i (by omega) _ _ h1 h2)

/-- non-vacuity of the streak: three iterations meet their tolerances, the primal tolerance falls from 200 to the target -/
example : ∃ st', solve Demo.infeasible
    { Demo.settings (1 / 100) (1 / 100) .newton 100 4 with innerTol0 := 10000000000, primTol0 := 20000, pow := fun t _ => t, muUpper := 1 / 10 }
    (Demo.ready Demo.infeasible (Demo.settings (1 / 100) (1 / 100) .newton 100 3)) 0 1 (fun _ => 0) = .ok st' ∧
    st'.outerLog.map (·.primTol) = [200, 20, 2, 1 / 5] ∧ st'.outerLog.map (·.mu) = [1 / 100, 1 / 100, 1 / 100, 1 / 100] := by
  obtain ⟨st', h, hp⟩ := checkSolve_sound Demo.infeasible
    { Demo.settings (1 / 100) (1 / 100) .newton 100 4 with
      innerTol0 := 10000000000, primTol0 := 20000, pow := fun t _ => t, muUpper := 1 / 10 } 30
    (Demo.ready Demo.infeasible (Demo.settings (1 / 100) (1 / 100) .newton 100 3)) 0 1 (fun _ => 0)
    (fun s => decide (s.outerLog.map (·.primTol) = [200, 20, 2, 1 / 5] ∧ s.outerLog.map (·.mu) = [1 / 100, 1 / 100, 1 / 100, 1 / 100]))
    (by decide +kernel)
  exact ⟨st', h, of_decide_eq_true hp⟩

/-! ### C65: the weight of the proximal term -/

/-- **C65, the weight.** Outer iteration `i` uses `rho_init · rho_update_factor ^ i`, whether or not the iterations before met their
tolerances. -/
theorem C65_rho_closed_form (P : Ctx X K H n m) (S : Settings K) (st st' : St X K H m) (x0 : X) (k : ℕ) (lams0 : Fin k → K)
    (h : solve P S st x0 k lams0 = .ok st') (i : ℕ) (r : OuterRec X K) (hr : st'.outerLog[i]? = some r) :
    r.rho = S.rhoInit * S.rhoUpdateFactor ^ i := by
  have hlen := solve_logs_length P S st st' x0 k lams0 h
  obtain ⟨c1, c2⟩ := C65_prox_centre_partial P S st st' x0 k lams0 h
  induction i generalizing r with
  | zero => rw [(c2 r hr).2.2, pow_zero, mul_one]
  | succ i ih =>
    have hlt := (List.getElem?_eq_some_iff.1 hr).1
    have h1 : st'.outerLog[i]? = some st'.outerLog[i] := List.getElem?_eq_getElem _
    have h2 : st'.endLog[i]? = some st'.endLog[i] := List.getElem?_eq_getElem _
    rw [(c1 i _ _ r h1 h2 hr).2.2, ih _ h1, pow_succ, mul_assoc]

/-- non-vacuity: four iterations with weights 1, 1/10, 1/100, 1/1000 -/
example : ∃ st', solve Demo.infeasible
    { Demo.settings (1 / 100) (1 / 100) .newton 100 4 with innerTol0 := 10000000, rhoInit := 1, rhoUpdateFactor := 1 / 10 }
    (Demo.ready Demo.infeasible (Demo.settings (1 / 100) (1 / 100) .newton 100 3)) 0 1 (fun _ => 0) = .ok st' ∧
    st'.outerLog.map (·.rho) = [1, 1 / 10, 1 / 100, 1 / 1000] := by
  obtain ⟨st', h, hp⟩ := checkSolve_sound Demo.infeasible
    { Demo.settings (1 / 100) (1 / 100) .newton 100 4 with innerTol0 := 10000000, rhoInit := 1, rhoUpdateFactor := 1 / 10 } 30
    (Demo.ready Demo.infeasible (Demo.settings (1 / 100) (1 / 100) .newton 100 3)) 0 1 (fun _ => 0)
    (fun s => decide (s.outerLog.map (·.rho) = [1, 1 / 10, 1 / 100, 1 / 1000])) (by decide +kernel)
  exact ⟨st', h, of_decide_eq_true hp⟩

end ProxNLP
