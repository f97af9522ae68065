import Verif.Lemmas.Solver

set_option linter.unusedSectionVars false
namespace ProxNLP

variable {X K H : Type} {n m : ℕ} [Field K] [LinearOrder K] [IsStrictOrderedRing K]

theorem afterInner_prim (S : Settings K) (st : St X K H m) : (afterInner S st).prim = st.prim := by
  unfold afterInner; simp only; split
  · rfl
  · unfold updatePenalty; simp only; split <;> rfl

theorem afterInner_dual (S : Settings K) (st : St X K H m) : (afterInner S st).dual = st.dual := by
  unfold afterInner; simp only; split
  · rfl
  · unfold updatePenalty; simp only; split <;> rfl

theorem afterInner_xOpt (S : Settings K) (st : St X K H m) : (afterInner S st).xOpt = st.xOpt := by
  unfold afterInner; simp only; split
  · rfl
  · unfold updatePenalty; simp only; split <;> rfl

theorem afterInner_target (S : Settings K) (st : St X K H m) : (afterInner S st).target = st.xOpt := by
  unfold afterInner; simp only; split
  · rfl
  · unfold updatePenalty; simp only; split <;> rfl

theorem afterInner_xPrev (S : Settings K) (st : St X K H m) : (afterInner S st).xPrev = st.xOpt := by
  unfold afterInner; simp only; split
  · rfl
  · unfold updatePenalty; simp only; split <;> rfl

theorem afterInner_numIters (S : Settings K) (st : St X K H m) :
    (afterInner S st).numIters = st.numIters := by
  unfold afterInner; simp only; split
  · rfl
  · unfold updatePenalty; simp only; split <;> rfl

theorem afterInner_alIters (S : Settings K) (st : St X K H m) :
    (afterInner S st).alIters = st.alIters := by
  unfold afterInner; simp only; split
  · rfl
  · unfold updatePenalty; simp only; split <;> rfl

theorem afterInner_converged (S : Settings K) (st : St X K H m) :
    (afterInner S st).converged = st.converged := by
  unfold afterInner; simp only; split
  · rfl
  · unfold updatePenalty; simp only; split <;> rfl

theorem afterInner_resMu (S : Settings K) (st : St X K H m) : (afterInner S st).resMu = st.resMu := by
  unfold afterInner; simp only; split
  · rfl
  · unfold updatePenalty; simp only; split <;> rfl

theorem afterInner_resRho (S : Settings K) (st : St X K H m) : (afterInner S st).resRho = st.resRho := by
  unfold afterInner; simp only; split
  · rfl
  · unfold updatePenalty; simp only; split <;> rfl

theorem afterInner_rho (S : Settings K) (st : St X K H m) : (afterInner S st).rho = st.rho := by
  unfold afterInner; simp only; split
  · rfl
  · unfold updatePenalty; simp only; split <;> rfl

theorem afterInner_callbacks (S : Settings K) (st : St X K H m) :
    (afterInner S st).callbacks = st.callbacks := by
  unfold afterInner; simp only; split
  · rfl
  · unfold updatePenalty; simp only; split <;> rfl

theorem afterInner_trace (S : Settings K) (st : St X K H m) :
    (afterInner S st).trace = st.trace := by
  unfold afterInner; simp only; split
  · rfl
  · unfold updatePenalty; simp only; split <;> rfl

theorem afterInner_accepted (S : Settings K) (st : St X K H m) :
    (afterInner S st).accepted = st.accepted := by
  unfold afterInner; simp only; split
  · rfl
  · unfold updatePenalty; simp only; split <;> rfl

theorem afterInner_outerLog (S : Settings K) (st : St X K H m) :
    (afterInner S st).outerLog = st.outerLog := by
  unfold afterInner; simp only; split
  · rfl
  · unfold updatePenalty; simp only; split <;> rfl

theorem afterInner_endLog (S : Settings K) (st : St X K H m) :
    (afterInner S st).endLog = st.endLog ++ [⟨st.prim, st.dual, st.xOpt⟩] := by
  unfold afterInner; simp only; split
  · rfl
  · unfold updatePenalty; simp only; split <;> rfl

theorem afterInner_mu (S : Settings K) (st : St X K H m) :
    (afterInner S st).mu = if st.prim < st.primTol then st.mu
      else if st.mu = S.muLower then S.muInit else max (st.mu * S.muUpdateFactor) S.muLower := by
  unfold afterInner
  simp only
  split
  · rfl
  · unfold updatePenalty; simp only; split <;> rfl

theorem afterInner_setMu (S : Settings K) (st : St X K H m) (h : st.setMu = st.mu) :
    (afterInner S st).setMu = (afterInner S st).mu := by
  unfold afterInner
  simp only
  split
  · exact h
  · unfold updatePenalty; simp only; split <;> rfl

theorem afterInner_primTol (S : Settings K) (st : St X K H m) :
    (afterInner S st).primTol = if st.prim < st.primTol
      then max (st.primTol * S.pow (st.mu / S.muUpper) S.primBeta) S.targetTol
      else max (S.primTol0 * S.pow (afterInner S st).mu S.primAlpha) S.targetTol := by
  unfold afterInner
  simp only
  split <;> rfl

theorem afterInner_innerTol (S : Settings K) (st : St X K H m) :
    (afterInner S st).innerTol = if st.prim < st.primTol
      then max (st.innerTol * S.pow (st.mu / S.muUpper) S.dualBeta) S.innerTolMin
      else max (S.innerTol0 * S.pow (afterInner S st).mu S.dualAlpha) S.innerTolMin := by
  unfold afterInner
  simp only
  split <;> rfl

theorem afterInner_lams_of_lt (S : Settings K) (st : St X K H m) (h : st.prim < st.primTol)
    (hm : S.mode = .newton) : (afterInner S st).lamsOpt = st.lamsOpt := by
  unfold afterInner
  simp only
  rw [if_pos h]
  simp [updateToleranceSuccess, tolerancePostUpdate, acceptMultipliers, hm]

/-- record of the parameters with which the next outer iteration would start -/
abbrev St.outerRec (st : St X K H m) : OuterRec X K :=
  ⟨st.mu, st.rho, st.innerTol, st.primTol, st.setMu, st.target, st.xOpt⟩

/-- Relation between the records of consecutive outer iterations. -/
structure OuterLink (S : Settings K) (r : OuterRec X K) (e : EndRec X K) (r' : OuterRec X K) : Prop where
  mu : r'.mu = if e.prim < r.primTol then r.mu
      else if r.mu = S.muLower then S.muInit else max (r.mu * S.muUpdateFactor) S.muLower
  rho : r'.rho = r.rho * S.rhoUpdateFactor
  target : r'.target = e.x
  x : r'.x = e.x
  primTol : r'.primTol = if e.prim < r.primTol
      then max (r.primTol * S.pow (r.mu / S.muUpper) S.primBeta) S.targetTol
      else max (S.primTol0 * S.pow r'.mu S.primAlpha) S.targetTol
  innerTol : r'.innerTol = if e.prim < r.primTol
      then max (r.innerTol * S.pow (r.mu / S.muUpper) S.dualBeta) S.innerTolMin
      else max (S.innerTol0 * S.pow r'.mu S.dualAlpha) S.innerTolMin
  setMu : r.setMu = r.mu → r'.setMu = r'.mu

/-- Linked logs. -/
def LinkedLogs (S : Settings K) (rs : List (OuterRec X K)) (es : List (EndRec X K)) : Prop :=
  ∀ k r e r', rs[k]? = some r → es[k]? = some e → rs[k + 1]? = some r' → OuterLink S r e r'

theorem nextOuter_link (P : Ctx X K H n m) (S : Settings K) (st st1 : St X K H m)
    (h : innerLoop P S (startOuter P st) = .ok st1) :
    OuterLink S st.outerRec ⟨st1.prim, st1.dual, st1.xOpt⟩ (nextOuter S st st1).outerRec := by
  have hf := innerLoop_frame P S _ _ h
  have e1 : st1.mu = st.mu := hf.mu
  have e2 : st1.setMu = st.setMu := hf.setMu
  have e3 : st1.primTol = st.primTol := hf.primTol
  have e4 : st1.innerTol = st.innerTol := hf.innerTol
  have e5 : st1.rho = st.rho := hf.rho
  constructor
  · show (afterInner S st1).mu = _
    rw [afterInner_mu, e1, e3]
  · show (afterInner S st1).rho * _ = _
    rw [afterInner_rho, e5]
  · exact afterInner_target S st1
  · exact afterInner_xOpt S st1
  · show (afterInner S st1).primTol = _
    rw [afterInner_primTol, e3, e1]; rfl
  · show (afterInner S st1).innerTol = _
    rw [afterInner_innerTol, e3, e1, e4]; rfl
  · intro hs
    exact afterInner_setMu S st1 (by rw [e2, e1]; exact hs)

theorem outerLoop_links (P : Ctx X K H n m) (S : Settings K) (st st' : St X K H m)
    (h : outerLoop P S st = .ok st') :
    st.endLog.length = st.outerLog.length → LinkedLogs S (st.outerLog ++ [st.outerRec]) st.endLog →
    st'.endLog.length = st'.outerLog.length ∧ LinkedLogs S st'.outerLog st'.endLog ∧
    (st.outerLog = [] → ∀ r, st'.outerLog[0]? = some r → r = st.outerRec) ∧
    (st.outerLog ≠ [] → st'.outerLog[0]? = st.outerLog[0]?) := by
  refine outerLoop_ind P S (R := fun st st' =>
    st.endLog.length = st.outerLog.length → LinkedLogs S (st.outerLog ++ [st.outerRec]) st.endLog →
    st'.endLog.length = st'.outerLog.length ∧ LinkedLogs S st'.outerLog st'.endLog ∧
    (st.outerLog = [] → ∀ r, st'.outerLog[0]? = some r → r = st.outerRec) ∧
    (st.outerLog ≠ [] → st'.outerLog[0]? = st.outerLog[0]?)) ?_ ?_ ?_ st st' h
  · intro st _ hl hL
    refine ⟨hl, ?_, ?_, fun _ => rfl⟩
    · intro k r e r' h1 h2 h3
      refine hL k r e r' ?_ h2 ?_
      · rw [List.getElem?_append_left (List.getElem?_eq_some_iff.1 h1).1]; exact h1
      · rw [List.getElem?_append_left (List.getElem?_eq_some_iff.1 h3).1]; exact h3
    · intro he r hr; rw [he] at hr; simp at hr
  · intro st st1 _ _ hin _ hl hL
    have hf := innerLoop_frame P S _ _ hin
    have ho : (afterInner S st1).outerLog = st.outerLog ++ [st.outerRec] := by
      rw [afterInner_outerLog, hf.outerLog]; rfl
    have he : (afterInner S st1).endLog = st.endLog ++ [⟨st1.prim, st1.dual, st1.xOpt⟩] := by
      rw [afterInner_endLog, hf.endLog]; rfl
    refine ⟨?_, ?_, ?_, ?_⟩
    · show (afterInner S st1).endLog.length = (afterInner S st1).outerLog.length
      rw [ho, he]; simp [hl]
    · show LinkedLogs S (afterInner S st1).outerLog (afterInner S st1).endLog
      rw [ho, he]
      intro k r e r' h1 h2 h3
      refine hL k r e r' h1 ?_ h3
      have : k + 1 < (st.outerLog ++ [st.outerRec]).length := (List.getElem?_eq_some_iff.1 h3).1
      simp at this
      rw [List.getElem?_append_left (by omega)] at h2
      exact h2
    · show _ → ∀ r, (afterInner S st1).outerLog[0]? = some r → _
      rw [ho]; intro hn r hr; rw [hn] at hr; simpa using hr.symm
    · show _ → (afterInner S st1).outerLog[0]? = _
      rw [ho]; intro hn
      rw [List.getElem?_append_left (List.length_pos_iff.2 hn)]
  · intro st st1 st' _ _ hin _ _ ih hl hL
    have hf := innerLoop_frame P S _ _ hin
    have ho : (nextOuter S st st1).outerLog = st.outerLog ++ [st.outerRec] := by
      show (afterInner S st1).outerLog = _
      rw [afterInner_outerLog, hf.outerLog]; rfl
    have he : (nextOuter S st st1).endLog = st.endLog ++ [⟨st1.prim, st1.dual, st1.xOpt⟩] := by
      show (afterInner S st1).endLog = _
      rw [afterInner_endLog, hf.endLog]; rfl
    have key := ih (by rw [ho, he]; simp [hl]) (by
      rw [ho, he]
      intro k r e r' h1 h2 h3
      by_cases hk : k < st.endLog.length
      · refine hL k r e r' ?_ ?_ ?_
        · rw [List.getElem?_append_left (by simp; omega)] at h1; exact h1
        · rw [List.getElem?_append_left hk] at h2; exact h2
        · rw [List.getElem?_append_left (by simp; omega)] at h3; exact h3
      · have hk' : k = st.endLog.length := by
          have := (List.getElem?_eq_some_iff.1 h2).1
          simp at this; omega
        subst hk'
        have h1' : r = st.outerRec := by
          rw [hl] at h1; simpa using h1.symm
        have h2' : e = ⟨st1.prim, st1.dual, st1.xOpt⟩ := by simpa using h2.symm
        have h3' : r' = (nextOuter S st st1).outerRec := by
          rw [hl] at h3
          rw [List.getElem?_append_right (by simp)] at h3
          simpa using h3.symm
        rw [h1', h2', h3']
        exact nextOuter_link P S st st1 hin)
    obtain ⟨a, b, c, d⟩ := key
    have hne : (nextOuter S st st1).outerLog ≠ [] := by rw [ho]; simp
    refine ⟨a, b, ?_, ?_⟩
    · intro hn r hr
      rw [d hne, ho, hn] at hr; simpa using hr.symm
    · intro hn
      rw [d hne, ho, List.getElem?_append_left (List.length_pos_iff.2 hn)]

/-- init state facts -/
theorem initSolve_outerLog (S : Settings K) (st : St X K H m) (x0 : X) (k : ℕ) (l : Fin k → K) :
    (initSolve S st x0 k l).outerLog = [] ∧ (initSolve S st x0 k l).endLog = [] ∧
    (initSolve S st x0 k l).trace = [] ∧ (initSolve S st x0 k l).accepted = [] ∧
    (initSolve S st x0 k l).numIters = 0 ∧ (initSolve S st x0 k l).alIters = 0 ∧
    (initSolve S st x0 k l).converged = .uninit ∧ (initSolve S st x0 k l).mu = S.muInit ∧
    (initSolve S st x0 k l).setMu = S.muInit ∧ (initSolve S st x0 k l).rho = S.rhoInit ∧
    (initSolve S st x0 k l).xOpt = x0 ∧ (initSolve S st x0 k l).target = st.target ∧
    (initSolve S st x0 k l).callbacks = st.callbacks ∧ (initSolve S st x0 k l).hidden = st.hidden ∧
    (initSolve S st x0 k l).primTol = max (S.primTol0 * S.pow S.muInit S.primAlpha) S.targetTol ∧
    (initSolve S st x0 k l).innerTol = max (S.innerTol0 * S.pow S.muInit S.dualAlpha) S.innerTolMin := by
  unfold initSolve
  simp only
  split <;> (repeat' apply And.intro) <;> first | trivial | rfl

end ProxNLP
