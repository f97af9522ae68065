import Verif.Spec.Interrupt
import Verif.Lemmas.SolverOuter

/-! Invariants of an interrupted solve (C110). -/

set_option linter.unusedSectionVars false
namespace ProxNLP

variable {X K H : Type} {n m : ℕ} [Field K] [LinearOrder K] [IsStrictOrderedRing K]

/-- invariant of the loops of `solve` -/
structure Running (S : Settings K) (cbs : List ℕ) (x0 : X) (l0 : Fin m → K) (st : St X K H m) : Prop where
  conv : st.converged = .uninit ∨ S.maxIters ≤ st.numIters
  setup : st.hasSetup = true
  callbacks : st.callbacks = cbs
  setMu : st.setMu = st.mu
  count : st.numIters = st.accepted.length
  point : st.xOpt = (Spec.lastReached x0 l0 st.accepted).1
  pair : S.mode = .newton → st.lamsOpt = (Spec.lastReached x0 l0 st.accepted).2

theorem lastReached_append (x0 : X) (l0 : Fin m → K) (acc : List (X × (Fin m → K))) (p : X × (Fin m → K)) :
    Spec.lastReached x0 l0 (acc ++ [p]) = p := by
  simp [Spec.lastReached]

theorem running_nextIter (P : Ctx X K H n m) (S : Settings K) (cbs : List ℕ) (x0 : X) (l0 : Fin m → K) (st : St X K H m)
    (h : Running S cbs x0 l0 st) (ev : EvalOut K n m) (o : StepOut X K H m)
    (hc : st.converged = .uninit) : Running S cbs x0 l0 (nextIter P st ev o) where
  conv := .inl hc
  setup := h.setup
  callbacks := h.callbacks
  setMu := h.setMu
  count := by
    show st.numIters + 1 = (st.accepted ++ [(o.x, o.lam)]).length
    rw [List.length_append, h.count]; rfl
  point := by
    show o.x = (Spec.lastReached x0 l0 (st.accepted ++ [(o.x, o.lam)])).1
    rw [lastReached_append]
  pair := fun _ => by
    show o.lam = (Spec.lastReached x0 l0 (st.accepted ++ [(o.x, o.lam)])).2
    rw [lastReached_append]

theorem running_inner (P : Ctx X K H n m) (S : Settings K) (cbs : List ℕ) (x0 : X) (l0 : Fin m → K) (st st' : St X K H m)
    (hin : innerLoop P S st = .ok st') (hc : st.converged = .uninit) (h : Running S cbs x0 l0 st) : Running S cbs x0 l0 st' := by
  refine innerLoop_ind P S (R := fun st st' => st.converged = .uninit → Running S cbs x0 l0 st → Running S cbs x0 l0 st')
    ?_ ?_ ?_ st st' hin hc h
  · intro st ev _ _ _ h
    exact ⟨h.conv, h.setup, h.callbacks, h.setMu, h.count, h.point, h.pair⟩
  · intro st ev o _ _ _ hm hc h
    have := running_nextIter P S cbs x0 l0 st h ev o hc
    exact ⟨.inr hm, this.setup, this.callbacks, this.setMu, this.count, this.point, this.pair⟩
  · intro st st' ev o _ _ _ _ _ ih hc h
    exact ih hc (running_nextIter P S cbs x0 l0 st h ev o hc)

theorem running_nextOuter (S : Settings K) (cbs : List ℕ) (x0 : X) (l0 : Fin m → K) (st st1 : St X K H m)
    (h : Running S cbs x0 l0 st1) : Running S cbs x0 l0 (nextOuter S st st1) where
  conv := by
    show (afterInner S st1).converged = _ ∨ _ ≤ (afterInner S st1).numIters
    rw [afterInner_converged, afterInner_numIters]; exact h.conv
  setup := by
    show (afterInner S st1).hasSetup = true
    rw [← h.setup]
    unfold afterInner updateToleranceSuccess updateToleranceFailure acceptMultipliers updatePenalty setPenalty tolerancePostUpdate
    dsimp only
    split
    · rfl
    · split <;> rfl
  callbacks := by
    show (afterInner S st1).callbacks = cbs
    rw [afterInner_callbacks]; exact h.callbacks
  setMu := afterInner_setMu S st1 h.setMu
  count := by
    show (afterInner S st1).numIters = (afterInner S st1).accepted.length
    rw [afterInner_numIters, afterInner_accepted]; exact h.count
  point := by
    show (afterInner S st1).xOpt = (Spec.lastReached x0 l0 (afterInner S st1).accepted).1
    rw [afterInner_xOpt, afterInner_accepted]; exact h.point
  pair := fun hm => by
    show (afterInner S st1).lamsOpt = (Spec.lastReached x0 l0 (afterInner S st1).accepted).2
    rw [afterInner_accepted, ← h.pair hm]
    unfold afterInner updateToleranceSuccess updateToleranceFailure acceptMultipliers updatePenalty setPenalty tolerancePostUpdate
    dsimp only
    rw [hm]
    split
    · rfl
    · split <;> rfl

/-- what is known of a state left by an exception in the loops -/
structure Stopped (S : Settings K) (cbs : List ℕ) (x0 : X) (l0 : Fin m → K) (st : St X K H m) : Prop where
  conv : st.converged = .uninit
  setup : st.hasSetup = true
  callbacks : st.callbacks = cbs
  setMu : st.setMu = st.mu
  count : st.accepted.length = st.numIters ∨ st.accepted.length = st.numIters + 1
  budget : st.numIters < S.maxIters
  point : st.xOpt = (Spec.lastReached x0 l0 st.accepted).1
  pair : S.mode = .newton → st.lamsOpt = (Spec.lastReached x0 l0 st.accepted).2

theorem stopped_inner (P : Ctx X K H n m) (S : Settings K) (cbs : List ℕ) (x0 : X) (l0 : Fin m → K) (st st' : St X K H m)
    (hin : InnerInterrupted P S st st') (hc : st.converged = .uninit) (hb : st.numIters < S.maxIters) (h : Running S cbs x0 l0 st) :
    Stopped S cbs x0 l0 st' := by
  induction hin with
  | eval st st' hw =>
    obtain ⟨lp, ld, hid, v, mer, p, d, act, re, rfl⟩ := hw
    exact ⟨hc, h.setup, h.callbacks, h.setMu, .inl h.count.symm, hb, h.point, h.pair⟩
  | step st st' ev hev hcr lp ld hid he =>
    subst he
    exact ⟨hc, h.setup, h.callbacks, h.setMu, .inl h.count.symm, hb, h.point, h.pair⟩
  | callback st st' ev o done hev hcr ho hd he =>
    subst he
    refine ⟨hc, h.setup, h.callbacks, h.setMu, .inr ?_, hb, ?_, fun _ => ?_⟩
    · show (st.accepted ++ [(o.x, o.lam)]).length = st.numIters + 1
      rw [List.length_append, h.count]; rfl
    · show o.x = (Spec.lastReached x0 l0 (st.accepted ++ [(o.x, o.lam)])).1
      rw [lastReached_append]
    · show o.lam = (Spec.lastReached x0 l0 (st.accepted ++ [(o.x, o.lam)])).2
      rw [lastReached_append]
  | next st st' ev o hev hcr ho hi _ ih =>
    exact ih hc (by show st.numIters + 1 < _; omega) (running_nextIter P S cbs x0 l0 st h ev o hc)

theorem stopped_outer (P : Ctx X K H n m) (S : Settings K) (cbs : List ℕ) (x0 : X) (l0 : Fin m → K) (st st' : St X K H m)
    (hin : OuterInterrupted P S st st') (h : Running S cbs x0 l0 st) : Stopped S cbs x0 l0 st' := by
  induction hin with
  | inner st st' hb hi =>
    have hc : st.converged = .uninit := h.conv.resolve_right (by omega)
    exact stopped_inner P S cbs x0 l0 _ st' hi hc hb.1 ⟨h.conv, h.setup, h.callbacks, h.setMu, h.count, h.point, h.pair⟩
  | next st st1 st' hb hi ht _ ih =>
    have hc : st.converged = .uninit := h.conv.resolve_right (by omega)
    exact ih (running_nextOuter S cbs x0 l0 st st1 (running_inner P S cbs x0 l0 _ st1 hi hc
      ⟨h.conv, h.setup, h.callbacks, h.setMu, h.count, h.point, h.pair⟩))

/-- multipliers a solve starts from -/
def startLams (st : St X K H m) (k : ℕ) (lams0 : Fin k → K) : Fin m → K :=
  if h : k = m then fun i => lams0 (Fin.cast h.symm i) else st.lamsOpt

theorem running_init (S : Settings K) (st : St X K H m) (hs : st.hasSetup = true) (x0 : X) (k : ℕ) (lams0 : Fin k → K) :
    Running S st.callbacks x0 (startLams st k lams0) (initSolve S st x0 k lams0) := by
  unfold initSolve setPenalty setProxParameter updateToleranceFailure tolerancePostUpdate startLams
  by_cases h : k = m
  · simp only [dif_pos h]
    exact ⟨.inl rfl, hs, rfl, rfl, rfl, rfl, fun _ => rfl⟩
  · simp only [dif_neg h]
    exact ⟨.inl rfl, hs, rfl, rfl, rfl, rfl, fun _ => rfl⟩

/-- the complete rounds of callbacks made so far: one per accepted step -/
def Traced (cbs : List ℕ) (snaps : List (Snap X K m)) (st : St X K H m) : Prop :=
  st.trace = snaps.flatMap (fun s => cbs.map fun cb => (cb, s)) ∧ snaps.length = st.numIters ∧
  snaps.map (fun s => (s.x, s.lam)) = st.accepted ∧ ∀ (i : ℕ) (s : Snap X K m), snaps[i]? = some s → s.numIters = i

theorem traced_nextIter (P : Ctx X K H n m) (cbs : List ℕ) (snaps : List (Snap X K m)) (st : St X K H m)
    (h : Traced cbs snaps st) (hcb : st.callbacks = cbs) (ev : EvalOut K n m) (o : StepOut X K H m) :
    Traced cbs (snaps ++ [⟨o.x, o.lam, o.merit, st.numIters⟩]) (nextIter P st ev o) := by
  obtain ⟨h1, h2, h3, h4⟩ := h
  refine ⟨?_, ?_, ?_, ?_⟩
  · show st.trace ++ st.callbacks.map (fun cb => (cb, (⟨o.x, o.lam, o.merit, st.numIters⟩ : Snap X K m))) = _
    rw [h1, hcb, List.flatMap_append]; simp
  · show _ = st.numIters + 1
    rw [List.length_append, h2]; rfl
  · show _ = st.accepted ++ [(o.x, o.lam)]
    rw [List.map_append, h3]; rfl
  · intro i s hs
    by_cases hi : i < snaps.length
    · rw [List.getElem?_append_left hi] at hs
      exact h4 i s hs
    · rw [List.getElem?_append_right (by omega)] at hs
      have : i - snaps.length = 0 := by
        have := (List.getElem?_eq_some_iff.1 hs).1
        simpa using this
      have hi : i = snaps.length := by omega
      subst hi
      rw [Nat.sub_self] at hs
      obtain rfl := Option.some.inj hs
      exact h2.symm

theorem traced_inner (P : Ctx X K H n m) (S : Settings K) (cbs : List ℕ) (st st' : St X K H m)
    (hin : innerLoop P S st = .ok st') (hcb : st.callbacks = cbs) (h : ∃ snaps, Traced cbs snaps st) :
    ∃ snaps, Traced cbs snaps st' := by
  refine innerLoop_ind P S (R := fun st st' => st.callbacks = cbs → (∃ snaps, Traced cbs snaps st) → ∃ snaps, Traced cbs snaps st')
    ?_ ?_ ?_ st st' hin hcb h
  · rintro st ev _ _ _ ⟨snaps, h⟩
    exact ⟨snaps, h⟩
  · rintro st ev o _ _ _ hm hcb ⟨snaps, h⟩
    exact ⟨_, traced_nextIter P cbs snaps st h hcb ev o⟩
  · rintro st st' ev o _ _ _ _ _ ih hcb ⟨snaps, h⟩
    exact ih hcb ⟨_, traced_nextIter P cbs snaps st h hcb ev o⟩

/-- the rounds of an interrupted solve: the complete ones and the beginning of the last -/
def Traced.Cut (cbs : List ℕ) (st' : St X K H m) : Prop :=
  ∃ (snaps : List (Snap X K m)) (done : List ℕ), done <+: cbs ∧
    st'.trace = snaps.flatMap (fun s => cbs.map fun cb => (cb, s)) ++
      done.map (fun cb => (cb, (⟨st'.xOpt, st'.lamsOpt, st'.merit, st'.numIters⟩ : Snap X K m))) ∧
    snaps.length = st'.numIters ∧ snaps.map (fun s => (s.x, s.lam)) = st'.accepted.take st'.numIters ∧
    ∀ (i : ℕ) (s : Snap X K m), snaps[i]? = some s → s.numIters = i

theorem traced_cut (cbs : List ℕ) (snaps : List (Snap X K m)) (st : St X K H m) (h : Traced cbs snaps st) :
    Traced.Cut cbs st := by
  obtain ⟨h1, h2, h3, h4⟩ := h
  refine ⟨snaps, [], List.nil_prefix, by rw [h1]; simp, h2, ?_, h4⟩
  rw [← h3, List.take_of_length_le (by rw [List.length_map, h2])]

theorem cut_inner (P : Ctx X K H n m) (S : Settings K) (cbs : List ℕ) (st st' : St X K H m)
    (hin : InnerInterrupted P S st st') (hcb : st.callbacks = cbs) (h : ∃ snaps, Traced cbs snaps st) : Traced.Cut cbs st' := by
  induction hin with
  | eval st st' hw =>
    obtain ⟨lp, ld, hid, v, mer, p, d, act, re, rfl⟩ := hw
    obtain ⟨snaps, h⟩ := h
    exact traced_cut cbs snaps _ h
  | step st st' ev hev hcr lp ld hid he =>
    subst he
    obtain ⟨snaps, h⟩ := h
    exact traced_cut cbs snaps _ h
  | callback st st' ev o done hev hcr ho hd he =>
    subst he
    obtain ⟨snaps, h1, h2, h3, h4⟩ := h
    refine ⟨snaps, done, hcb ▸ hd, ?_, h2, ?_, h4⟩
    · show st.trace ++ _ = _
      rw [h1]; rfl
    · show _ = (st.accepted ++ [(o.x, o.lam)]).take st.numIters
      have hl : st.accepted.length = st.numIters := by rw [← h3, List.length_map, h2]
      rw [List.take_append_of_le_length (Nat.le_of_eq hl.symm), List.take_of_length_le (Nat.le_of_eq hl), h3]
  | next st st' ev o hev hcr ho hi _ ih =>
    obtain ⟨snaps, h⟩ := h
    exact ih hcb ⟨_, traced_nextIter P cbs snaps st h hcb ev o⟩

theorem traced_nextOuter (S : Settings K) (cbs : List ℕ) (st st1 : St X K H m) (h : ∃ snaps, Traced cbs snaps st1) :
    ∃ snaps, Traced cbs snaps (nextOuter S st st1) := by
  obtain ⟨snaps, h1, h2, h3, h4⟩ := h
  refine ⟨snaps, ?_, ?_, ?_, h4⟩
  · show (afterInner S st1).trace = _
    rw [afterInner_trace]; exact h1
  · show _ = (afterInner S st1).numIters
    rw [afterInner_numIters]; exact h2
  · show _ = (afterInner S st1).accepted
    rw [afterInner_accepted]; exact h3

theorem innerLoop_callbacks_eq (P : Ctx X K H n m) (S : Settings K) (st st' : St X K H m) (hin : innerLoop P S st = .ok st') :
    st'.callbacks = st.callbacks := by
  refine innerLoop_ind P S (R := fun st st' => st'.callbacks = st.callbacks) ?_ ?_ ?_ st st' hin
  · intros; rfl
  · intros; rfl
  · intro st st' ev o _ _ _ _ _ ih
    exact ih

theorem cut_outer (P : Ctx X K H n m) (S : Settings K) (cbs : List ℕ) (st st' : St X K H m)
    (hin : OuterInterrupted P S st st') (hcb : st.callbacks = cbs) (h : ∃ snaps, Traced cbs snaps st) : Traced.Cut cbs st' := by
  induction hin with
  | inner st st' hb hi => exact cut_inner P S cbs _ st' hi hcb h
  | next st st1 st' hb hi ht _ ih =>
    refine ih ?_ (traced_nextOuter S cbs st st1 (traced_inner P S cbs _ st1 hi hcb h))
    show (afterInner S st1).callbacks = cbs
    rw [afterInner_callbacks, innerLoop_callbacks_eq P S _ st1 hi]; exact hcb

theorem traced_init (S : Settings K) (st : St X K H m) (x0 : X) (k : ℕ) (lams0 : Fin k → K) :
    Traced st.callbacks [] (initSolve S st x0 k lams0) := by
  unfold initSolve setPenalty setProxParameter updateToleranceFailure tolerancePostUpdate
  refine ⟨rfl, rfl, rfl, fun i s hs => by simp at hs⟩

end ProxNLP
