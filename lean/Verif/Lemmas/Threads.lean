import Verif.Spec.Threads

/-! Threads whose accesses do not conflict behave under every schedule as they do alone (C109). -/

set_option linter.unusedSectionVars false
namespace ProxNLP

section
variable {I L : Type} [DecidableEq I] [DecidableEq L] {V : L → Type} {R : I → Type} {R' R'' : Type}

/-- number of accesses of the thread when it runs without the others -/
def Prog.len : Prog L V R' → (∀ l, V l) → ℕ
  | .ret _, _ => 0
  | .read l k, mem => (k (mem l)).len mem + 1
  | .write l v k, mem => k.len (Function.update mem l v) + 1

/-- two memories hold the same on the locations the thread may use -/
def AgreeOn (A W : L → Prop) (mem mem' : ∀ l, V l) : Prop := ∀ l, A l ∨ W l → mem l = mem' l

theorem alone_congr (A W : L → Prop) (p : Prog L V R') (hp : Spec.Within A W p) :
    ∀ mem mem' : ∀ l, V l, AgreeOn A W mem mem' →
      (p.alone mem).2 = (p.alone mem').2 ∧ AgreeOn A W (p.alone mem).1 (p.alone mem').1 ∧ p.len mem = p.len mem' := by
  induction p with
  | ret r => intro mem mem' h; exact ⟨rfl, h, rfl⟩
  | read l k ih =>
    intro mem mem' h
    obtain ⟨hl, hk⟩ := hp
    have := ih (mem l) (hk _) mem mem' h
    simp only [Prog.alone, Prog.len]
    rw [← h l (.inl hl)]
    exact ⟨this.1, this.2.1, by rw [this.2.2]⟩
  | write l v k ih =>
    intro mem mem' h
    have := ih hp.2 (Function.update mem l v) (Function.update mem' l v) (by
      intro l' hl'
      by_cases e : l' = l
      · subst e; simp
      · rw [Function.update_of_ne e, Function.update_of_ne e]; exact h l' hl')
    exact ⟨this.1, this.2.1, by simp only [Prog.len]; rw [this.2.2]⟩

theorem alone_of_len_zero (p : Prog L V R') (mem : ∀ l, V l) (h : p.len mem = 0) : p = .ret (p.alone mem).2 := by
  cases p with
  | ret r => rfl
  | read l k => simp [Prog.len] at h
  | write l v k => simp [Prog.len] at h

/-- one access of the thread itself -/
theorem step_self (M : Machine I L V R) (i : I) :
    ((M.step i).threads i).alone (M.step i).mem = (M.threads i).alone M.mem ∧
    ((M.step i).threads i).len (M.step i).mem = (M.threads i).len M.mem - 1 := by
  unfold Machine.step
  cases h : M.threads i with
  | ret r => simp [h, Prog.len]
  | read l k => simp [Prog.alone, Prog.len]
  | write l v k => simp [Prog.alone, Prog.len]

theorem step_other_threads (M : Machine I L V R) (i j : I) (h : j ≠ i) : (M.step i).threads j = M.threads j := by
  unfold Machine.step
  split <;> simp [h]

theorem step_within (A W : I → L → Prop) (M : Machine I L V R) (hM : ∀ i, Spec.Within (A i) (W i) (M.threads i)) (i j : I) :
    Spec.Within (A j) (W j) ((M.step i).threads j) := by
  by_cases h : j = i
  · subst h
    have := hM j
    unfold Machine.step
    cases hp : M.threads j with
    | ret r => simp only [hp] at this ⊢; exact this
    | read l k => rw [hp] at this; simp only [Function.update_self]; exact this.2 _
    | write l v k => rw [hp] at this; simp only [Function.update_self]; exact this.2
  · rw [step_other_threads M i j h]; exact hM j

theorem step_mem (A W : I → L → Prop) (hd : Spec.Disjoint A W) (M : Machine I L V R)
    (hM : ∀ i, Spec.Within (A i) (W i) (M.threads i)) (i j : I) (h : j ≠ i) : AgreeOn (A j) (W j) (M.step i).mem M.mem := by
  have := hM i
  unfold Machine.step
  cases hp : M.threads i with
  | ret r => intro l _; rfl
  | read l k => intro l _; rfl
  | write l v k =>
    rw [hp] at this
    intro l' hl'
    have hne : l' ≠ l := by
      rintro rfl
      have := hd i j (Ne.symm h) l' this.1
      exact hl'.elim this.1 this.2
    exact Function.update_of_ne hne _ _

/-- what the threads still have to do, under every schedule -/
theorem machine_run_inv (A W : I → L → Prop) (hd : Spec.Disjoint A W) (s : List I) :
    ∀ M : Machine I L V R, (∀ i, Spec.Within (A i) (W i) (M.threads i)) →
      (∀ i, Spec.Within (A i) (W i) ((M.run s).threads i)) ∧
      ∀ i, (((M.run s).threads i).alone (M.run s).mem).2 = ((M.threads i).alone M.mem).2 ∧
        AgreeOn (A i) (W i) (((M.run s).threads i).alone (M.run s).mem).1 ((M.threads i).alone M.mem).1 ∧
        ((M.run s).threads i).len (M.run s).mem = (M.threads i).len M.mem - s.count i := by
  induction s with
  | nil => intro M hM; exact ⟨hM, fun i => ⟨rfl, fun _ _ => rfl, by simp [Machine.run]⟩⟩
  | cons j s ih =>
    intro M hM
    obtain ⟨h1, h2⟩ := ih (M.step j) (fun i => step_within A W M hM j i)
    refine ⟨h1, fun i => ?_⟩
    obtain ⟨ha, hb, hc⟩ := h2 i
    simp only [Machine.run]
    by_cases h : i = j
    · subst h
      have hs := step_self M i
      rw [hs.1] at ha hb
      rw [hs.2] at hc
      refine ⟨ha, hb, ?_⟩
      rw [hc, List.count_cons_self]; omega
    · have ht := step_other_threads M j i h
      have hcg := alone_congr (A i) (W i) (M.threads i) (hM i) _ _ (step_mem A W hd M hM j i h)
      rw [ht] at ha hb hc
      refine ⟨ha.trans hcg.1, fun l hl => (hb l hl).trans (hcg.2.1 l hl), ?_⟩
      rw [hc, hcg.2.2, List.count_cons_of_ne (Ne.symm h)]

/-- threads with disjoint accesses never race -/
theorem not_racing (A W : I → L → Prop) (hd : Spec.Disjoint A W) (M : Machine I L V R)
    (hM : ∀ i, Spec.Within (A i) (W i) (M.threads i)) : ¬ Spec.Racing M := by
  have key : ∀ i l w, Spec.nextAccess (M.threads i) = some (l, w) → (w = true → W i l) ∧ (w = false → A i l) := by
    intro i l w h
    have := hM i
    cases hp : M.threads i with
    | ret r => rw [hp] at h; cases h
    | read l' k =>
      rw [hp] at h this
      simp only [Spec.nextAccess, Option.some.injEq, Prod.mk.injEq] at h
      obtain ⟨rfl, rfl⟩ := h
      exact ⟨by simp, fun _ => this.1⟩
    | write l' v k =>
      rw [hp] at h this
      simp only [Spec.nextAccess, Option.some.injEq, Prod.mk.injEq] at h
      obtain ⟨rfl, rfl⟩ := h
      exact ⟨fun _ => this.1, by simp⟩
  rintro ⟨i, j, l, wi, wj, hij, hi, hj, hw⟩
  have ki := key i l wi hi
  have kj := key j l wj hj
  rcases hw with rfl | rfl
  · have := hd i j hij l (ki.1 rfl)
    cases wj
    · exact this.1 (kj.2 rfl)
    · exact this.2 (kj.1 rfl)
  · have := hd j i (Ne.symm hij) l (kj.1 rfl)
    cases wi
    · exact this.1 (ki.2 rfl)
    · exact this.2 (ki.1 rfl)

/-! ### Composition -/

theorem bind_alone (p : Prog L V R') (f : R' → Prog L V R'') (mem : ∀ l, V l) :
    (p.bind f).alone mem = (f (p.alone mem).2).alone (p.alone mem).1 := by
  induction p generalizing mem with
  | ret r => rfl
  | read l k ih => simp only [Prog.bind, Prog.alone]; exact ih _ _
  | write l v k ih => simp only [Prog.bind, Prog.alone]; exact ih _

theorem bind_within (A W : L → Prop) (p : Prog L V R') (f : R' → Prog L V R'') (hp : Spec.Within A W p)
    (hf : ∀ r, Spec.Within A W (f r)) : Spec.Within A W (p.bind f) := by
  induction p with
  | ret r => exact hf r
  | read l k ih => exact ⟨hp.1, fun v => ih v (hp.2 v)⟩
  | write l v k ih => exact ⟨hp.1, ih hp.2⟩

end

/-! ### The solve -/

section
variable {X K H : Type} {n m : ℕ} [Field K] [LinearOrder K] [IsStrictOrderedRing K] {R : Type}

/-- locations a solve may use -/
def ThreadCtx.uses (T : ThreadCtx X K H n m) : SharedLoc → Prop
  | .setMu p => m ≠ 0 ∧ p = T.problem
  | .err c => T.cost = some c

theorem putMu_within (T : ThreadCtx X K H n m) (mu : K) (k : Prog SharedLoc (SharedVal X K) R) (hk : Spec.Within T.uses T.uses k) :
    Spec.Within T.uses T.uses (T.putMu mu k) := by
  unfold ThreadCtx.putMu
  split
  · exact hk
  · rename_i h; exact ⟨⟨h, rfl⟩, hk⟩

theorem getMu_within (T : ThreadCtx X K H n m) (own : K) (k : K → Prog SharedLoc (SharedVal X K) R)
    (hk : ∀ v, Spec.Within T.uses T.uses (k v)) : Spec.Within T.uses T.uses (T.getMu own k) := by
  unfold ThreadCtx.getMu
  split
  · exact hk _
  · rename_i h; exact ⟨⟨h, rfl⟩, hk⟩

theorem putErr_within (T : ThreadCtx X K H n m) (x : X) (k : Prog SharedLoc (SharedVal X K) R) (hk : Spec.Within T.uses T.uses k) :
    Spec.Within T.uses T.uses (T.putErr x k) := by
  unfold ThreadCtx.putErr
  cases h : T.cost with
  | none => exact hk
  | some c => exact ⟨h, hk⟩

theorem getErr_within (T : ThreadCtx X K H n m) (x : X) (k : X → Prog SharedLoc (SharedVal X K) R)
    (hk : ∀ v, Spec.Within T.uses T.uses (k v)) : Spec.Within T.uses T.uses (T.getErr x k) := by
  unfold ThreadCtx.getErr
  cases h : T.cost with
  | none => exact hk _
  | some c => exact ⟨h, hk⟩

theorem innerProg_within (T : ThreadCtx X K H n m) (S : Settings K) (st : St X K H m) :
    Spec.Within T.uses T.uses (innerProg T S st) := by
  induction hN : S.maxIters - st.numIters using Nat.strong_induction_on generalizing st with
  | _ N ih =>
    rw [innerProg]
    refine putErr_within T _ _ (getMu_within T _ _ fun sm => getErr_within T _ _ fun y => ?_)
    split
    · trivial
    · rename_i ev hev
      dsimp only
      split
      · trivial
      · refine getMu_within T _ _ fun sm' => ?_
        split
        · trivial
        · refine putErr_within T _ _ ?_
          split
          · trivial
          · rename_i hlt
            exact ih _ (by simp only; omega) _ rfl

theorem outerProg_within (T : ThreadCtx X K H n m) (S : Settings K) (st : St X K H m) :
    Spec.Within T.uses T.uses (outerProg T S st) := by
  induction hN : S.maxAlIters - st.alIters using Nat.strong_induction_on generalizing st with
  | _ N ih =>
    rw [outerProg]
    split
    · rename_i hlt
      refine bind_within _ _ _ _ (innerProg_within T S _) fun r => ?_
      cases r with
      | error e => trivial
      | ok st1 =>
        have hrest : Spec.Within T.uses T.uses
            (if max (afterInner S st1).prim (afterInner S st1).dual < S.targetTol then
              (.ret (.ok { afterInner S st1 with converged := .success }) : Prog SharedLoc (SharedVal X K) (Except String (St X K H m)))
            else outerProg T S { setProxParameter (afterInner S st1) ((afterInner S st1).rho * S.rhoUpdateFactor) with
              alIters := st.alIters + 1 }) := by
          split
          · trivial
          · exact ih _ (by simp only; omega) _ rfl
        dsimp only
        split
        · exact hrest
        · exact putMu_within T _ _ hrest
    · trivial

theorem solveProg_within (T : ThreadCtx X K H n m) (S : Settings K) (st : St X K H m) (x0 : X) (k : ℕ) (lams0 : Fin k → K) :
    Spec.Within T.uses T.uses (solveProg T S st x0 k lams0) := by
  unfold solveProg
  split
  · trivial
  · refine putMu_within T _ _ (bind_within _ _ _ _ (outerProg_within T S _) fun r => ?_)
    cases r <;> trivial

/-! ### Alone, it is `solve` -/

/-- the memory holds the solver's parameter of the sets -/
def HoldsMu (T : ThreadCtx X K H n m) (mem : ∀ l, SharedVal X K l) (mu : K) : Prop := m ≠ 0 → mem (.setMu T.problem) = mu

theorem getMu_alone (T : ThreadCtx X K H n m) (own : K) (k : K → Prog SharedLoc (SharedVal X K) R) (mem : ∀ l, SharedVal X K l)
    (h : HoldsMu T mem own) : (T.getMu own k).alone mem = (k own).alone mem := by
  unfold ThreadCtx.getMu
  split
  · rfl
  · rename_i hm
    show (k (mem (.setMu T.problem))).alone mem = _
    rw [h hm]

/-- memory after `putMu` -/
def ThreadCtx.memMu (T : ThreadCtx X K H n m) (mu : K) (mem : ∀ l, SharedVal X K l) : ∀ l, SharedVal X K l :=
  if m = 0 then mem else Function.update mem (.setMu T.problem) mu

/-- memory after `putErr` -/
def ThreadCtx.memErr (T : ThreadCtx X K H n m) (x : X) (mem : ∀ l, SharedVal X K l) : ∀ l, SharedVal X K l :=
  match T.cost with
  | none => mem
  | some c => Function.update mem (.err c) x

theorem putMu_alone (T : ThreadCtx X K H n m) (mu : K) (k : Prog SharedLoc (SharedVal X K) R) (mem : ∀ l, SharedVal X K l) :
    (T.putMu mu k).alone mem = k.alone (T.memMu mu mem) := by
  unfold ThreadCtx.putMu ThreadCtx.memMu
  split <;> rfl

theorem holdsMu_memMu (T : ThreadCtx X K H n m) (mu : K) (mem : ∀ l, SharedVal X K l) : HoldsMu T (T.memMu mu mem) mu := by
  intro hm
  unfold ThreadCtx.memMu
  rw [if_neg hm]
  exact Function.update_self (SharedLoc.setMu T.problem) (mu : SharedVal X K (.setMu T.problem)) mem

theorem putErr_alone (T : ThreadCtx X K H n m) (x : X) (k : Prog SharedLoc (SharedVal X K) R) (mem : ∀ l, SharedVal X K l) :
    (T.putErr x k).alone mem = k.alone (T.memErr x mem) := by
  unfold ThreadCtx.putErr ThreadCtx.memErr
  cases T.cost <;> rfl

theorem holdsMu_memErr (T : ThreadCtx X K H n m) (x : X) (mem : ∀ l, SharedVal X K l) (mu : K) (h : HoldsMu T mem mu) :
    HoldsMu T (T.memErr x mem) mu := by
  intro hm
  unfold ThreadCtx.memErr
  cases T.cost with
  | none => exact h hm
  | some c => exact (Function.update_of_ne (f := mem) (show SharedLoc.setMu T.problem ≠ .err c by simp) x).trans (h hm)

theorem getErr_alone (T : ThreadCtx X K H n m) (x : X) (k : X → Prog SharedLoc (SharedVal X K) R) (mem : ∀ l, SharedVal X K l) :
    (T.getErr x k).alone (T.memErr x mem) = (k x).alone (T.memErr x mem) := by
  unfold ThreadCtx.getErr ThreadCtx.memErr
  cases T.cost with
  | none => rfl
  | some c =>
    show (k (Function.update mem (.err c) x (.err c))).alone _ = _
    exact congrArg (fun y => (k y).alone (Function.update mem (.err c) x))
      (Function.update_self (SharedLoc.err c) (x : SharedVal X K (.err c)) mem)

theorem ThreadCtx.evalAt_at (T : ThreadCtx X K H n m) (hT : Spec.BufferOk T) (S : Settings K) (mu setMu rho : K) (target x : X)
    (lam lamPrev : Fin m → K) :
    evalAt (T.at x) S mu setMu rho target x lam lamPrev = evalAt T.P S mu setMu rho target x lam lamPrev := by
  unfold evalAt
  have : (T.at x).grad x = T.P.grad x := hT x
  rw [this]
  rfl

theorem innerProg_alone (T : ThreadCtx X K H n m) (hT : Spec.BufferOk T) (S : Settings K) (st : St X K H m)
    (mem : ∀ l, SharedVal X K l) (hmem : HoldsMu T mem st.setMu) :
    ∃ mem', (innerProg T S st).alone mem = (mem', innerLoop T.P S st) ∧
      ∀ st', innerLoop T.P S st = .ok st' → HoldsMu T mem' st'.setMu := by
  induction hN : S.maxIters - st.numIters using Nat.strong_induction_on generalizing st mem with
  | _ N ih =>
    rw [innerProg, innerLoop, putErr_alone]
    have h1 := holdsMu_memErr T st.xOpt mem _ hmem
    rw [getMu_alone T _ _ _ h1, getErr_alone, T.evalAt_at hT]
    generalize T.memErr st.xOpt mem = mem1 at h1
    cases hev : evalAt T.P S st.mu st.setMu st.rho st.target st.xOpt st.lamsOpt st.lamsPrev with
    | none => exact ⟨mem1, rfl, fun _ h => by cases h⟩
    | some ev =>
      have haft : afterEval (T.at st.xOpt) st ev = afterEval T.P st ev := rfl
      simp only [haft]
      split
      · refine ⟨mem1, rfl, fun st' h => ?_⟩
        injection h with h; subst h
        exact h1
      · rw [getMu_alone T _ _ _ h1]
        have hst1 : ({ afterEval T.P st ev with setMu := st.setMu } : St X K H m) = afterEval T.P st ev := rfl
        rw [hst1]
        cases hstep : T.P.step (stepIn (afterEval T.P st ev) ev) with
        | error e => exact ⟨mem1, rfl, fun _ h => by cases h⟩
        | ok o =>
          simp only
          rw [putErr_alone]
          have h2 := holdsMu_memErr T o.x mem1 _ h1
          split
          · refine ⟨_, rfl, fun st' h => ?_⟩
            injection h with h; subst h
            exact h2
          · exact ih _ (by simp only; omega) _ _ h2 rfl

theorem outerProg_alone (T : ThreadCtx X K H n m) (hT : Spec.BufferOk T) (S : Settings K) (st : St X K H m)
    (mem : ∀ l, SharedVal X K l) (hmem : HoldsMu T mem st.setMu) :
    ((outerProg T S st).alone mem).2 = outerLoop T.P S st := by
  induction hN : S.maxAlIters - st.alIters using Nat.strong_induction_on generalizing st mem with
  | _ N ih =>
    rw [outerProg, outerLoop]
    split
    · rename_i hlt
      rw [bind_alone]
      obtain ⟨mem1, he, h1⟩ := innerProg_alone T hT S (startOuter T.P st) mem hmem
      rw [he]
      simp only
      cases hi : innerLoop T.P S (startOuter T.P st) with
      | error e => rfl
      | ok st1 =>
        have h1 := h1 _ hi
        simp only
        have hrest : ∀ mem2, HoldsMu T mem2 (afterInner S st1).setMu → ((
            if max (afterInner S st1).prim (afterInner S st1).dual < S.targetTol then
              (.ret (.ok { afterInner S st1 with converged := .success }) : Prog SharedLoc (SharedVal X K) (Except String (St X K H m)))
            else outerProg T S { setProxParameter (afterInner S st1) ((afterInner S st1).rho * S.rhoUpdateFactor) with
              alIters := st.alIters + 1 }).alone mem2).2 =
            if max (afterInner S st1).prim (afterInner S st1).dual < S.targetTol then
              .ok { afterInner S st1 with converged := .success }
            else outerLoop T.P S { setProxParameter (afterInner S st1) ((afterInner S st1).rho * S.rhoUpdateFactor) with
              alIters := st.alIters + 1 } := by
          intro mem2 h2
          split
          · rfl
          · exact ih _ (by simp only; omega) _ _ h2 rfl
        split
        · rename_i hp
          refine hrest mem1 ?_
          have : (afterInner S st1).setMu = st1.setMu := by
            unfold afterInner
            simp only
            rw [if_pos hp]
            unfold updateToleranceSuccess acceptMultipliers
            cases S.mode <;> rfl
          rw [this]; exact h1
        · rw [putMu_alone]
          exact hrest _ (holdsMu_memMu T _ _)
    · rfl

theorem solveProg_alone (T : ThreadCtx X K H n m) (hT : Spec.BufferOk T) (S : Settings K) (st : St X K H m) (x0 : X) (k : ℕ)
    (lams0 : Fin k → K) (mem : ∀ l, SharedVal X K l) :
    ((solveProg T S st x0 k lams0).alone mem).2 = solve T.P S st x0 k lams0 := by
  unfold solveProg solve
  split
  · rfl
  · rw [putMu_alone, bind_alone]
    have hi : (initSolve S st x0 k lams0).setMu = S.muInit := by
      unfold initSolve setPenalty setProxParameter updateToleranceFailure
      dsimp only
      split <;> rfl
    rw [outerProg_alone T hT S _ _ (by rw [hi]; exact holdsMu_memMu T _ _)]
    cases outerLoop T.P S (initSolve S st x0 k lams0) <;> rfl

/-! ### Concrete executions -/

/-- `innerProg` with a bound on the number of passes, for evaluation -/
def innerProgF (T : ThreadCtx X K H n m) (S : Settings K) : ℕ → St X K H m → Prog SharedLoc (SharedVal X K) (Except String (St X K H m))
  | 0, _ => .ret (.error "fuel")
  | fuel + 1, st =>
    T.putErr st.xOpt <| T.getMu st.setMu fun sm => T.getErr st.xOpt fun y =>
    match evalAt (T.at y) S st.mu sm st.rho st.target st.xOpt st.lamsOpt st.lamsPrev with
    | none => .ret (.error "evaluation")
    | some ev =>
      let st1 := afterEval (T.at y) { st with setMu := sm } ev
      if ev.innerCrit ≤ st.innerTol ∨ ev.outerCrit ≤ S.targetTol then .ret (.ok st1)
      else T.getMu sm fun sm' =>
        match T.P.step (stepIn { st1 with setMu := sm' } ev) with
        | .error e => .ret (.error e)
        | .ok o =>
          T.putErr o.x <|
          let st2 := { acceptStep st1 o with numIters := st.numIters + 1 }
          if st.numIters + 1 ≥ S.maxIters then .ret (.ok { st2 with converged := .maxIters })
          else innerProgF T S fuel st2

theorem innerProgF_eq (T : ThreadCtx X K H n m) (S : Settings K) (fuel : ℕ) (st : St X K H m) (h : S.maxIters - st.numIters < fuel) :
    innerProgF T S fuel st = innerProg T S st := by
  induction fuel generalizing st with
  | zero => omega
  | succ fuel ih =>
    rw [innerProgF, innerProg]
    refine congrArg _ (congrArg _ (funext fun sm => congrArg _ (funext fun y => ?_)))
    cases evalAt (T.at y) S st.mu sm st.rho st.target st.xOpt st.lamsOpt st.lamsPrev with
    | none => rfl
    | some ev =>
      simp only
      split
      · rfl
      · refine congrArg _ (funext fun sm' => ?_)
        generalize T.P.step (stepIn _ ev) = r
        cases r with
        | error e => rfl
        | ok o =>
          simp only
          refine congrArg _ ?_
          split
          · rfl
          · exact ih _ (by simp only; omega)

/-- `outerProg` with a bound on the number of passes, for evaluation -/
def outerProgF (T : ThreadCtx X K H n m) (S : Settings K) : ℕ → St X K H m → Prog SharedLoc (SharedVal X K) (Except String (St X K H m))
  | 0, _ => .ret (.error "fuel")
  | fuel + 1, st =>
    if st.numIters < S.maxIters ∧ st.alIters < S.maxAlIters then
      (innerProgF T S (S.maxIters + 1) (startOuter T.P st)).bind fun r =>
        match r with
        | .error e => .ret (.error e)
        | .ok st1 =>
          let st2 := afterInner S st1
          let rest :=
            if max st2.prim st2.dual < S.targetTol then .ret (.ok { st2 with converged := .success })
            else outerProgF T S fuel { setProxParameter st2 (st2.rho * S.rhoUpdateFactor) with alIters := st.alIters + 1 }
          if st1.prim < st1.primTol then rest else T.putMu st2.setMu rest
    else .ret (.ok st)

theorem outerProgF_eq (T : ThreadCtx X K H n m) (S : Settings K) (fuel : ℕ) (st : St X K H m) (h : S.maxAlIters - st.alIters < fuel) :
    outerProgF T S fuel st = outerProg T S st := by
  induction fuel generalizing st with
  | zero => omega
  | succ fuel ih =>
    rw [outerProgF, outerProg, innerProgF_eq T S _ _ (by omega)]
    split
    · refine congrArg _ (funext fun r => ?_)
      cases r with
      | error e => rfl
      | ok st1 => simp only; rw [ih _ (by simp only; omega)]
    · rfl

/-- `solveProg` with bounds on the number of passes, for evaluation -/
def solveProgF (T : ThreadCtx X K H n m) (S : Settings K) (st : St X K H m) (x0 : X) (k : ℕ) (lams0 : Fin k → K) :
    Prog SharedLoc (SharedVal X K) (Except String (St X K H m)) :=
  if st.hasSetup = false then .ret (.error "Either Results or Workspace are unitialized. Call setup() first.")
  else T.putMu S.muInit <| (outerProgF T S (S.maxAlIters + 1) (initSolve S st x0 k lams0)).bind fun r =>
    match r with
    | .error e => .ret (.error e)
    | .ok st => .ret (.ok (invokeCallbacks st))

theorem solveProgF_eq (T : ThreadCtx X K H n m) (S : Settings K) (st : St X K H m) (x0 : X) (k : ℕ) (lams0 : Fin k → K) :
    solveProgF T S st x0 k lams0 = solveProg T S st x0 k lams0 := by
  unfold solveProgF solveProg
  rw [outerProgF_eq T S _ _ (by omega)]
  split
  · rfl
  · refine congrArg _ (congrArg _ (funext fun r => ?_))
    cases r <;> rfl

end

end ProxNLP
