import Verif.Lemmas.Calls

/-! The solver run with objects that implement mathematical functions returns what `ProxNLP.solve` returns for these functions. -/

set_option linter.unusedSectionVars false

namespace ProxNLP

open Spec

variable {X K : Type} {nc : ℕ} {d : Fin nc → ℕ} {n : ℕ} {R R' : Type}

/-- the result when every call is answered by the functions -/
def Calls.val (F : Functions X K nc d n) : Calls X K nc d n R → R
  | .ret r => r
  | .call q k => (k (F.ans q)).val F

theorem val_bind (F : Functions X K nc d n) (t : Calls X K nc d n R) (f : R → Calls X K nc d n R') :
    (t.bind f).val F = (f (t.val F)).val F := by
  induction t with
  | ret r => rfl
  | call q k ih => exact ih _

theorem evaluatedAt_snoc {o : Option (Fin nc)} {x : X} {l : List (CallRec X K nc d)} {q : Query X K nc d} {b : Bool}
    (h : EvaluatedAt o x (l ++ [(q, b)])) : b = true ∧ q.point = x ∧ (EvaluatedAt o x l ∨ (q.order = 0 ∧ q.obj = o)) := by
  obtain ⟨pre, q', mid, h1, h2, h3, h4, h5⟩ := h
  rcases List.eq_nil_or_concat mid with rfl | ⟨mid', e, rfl⟩
  · have := List.append_inj' h1 rfl
    simp only [List.cons.injEq, Prod.mk.injEq, and_true] at this
    obtain ⟨-, rfl, rfl⟩ := this
    exact ⟨rfl, h4, .inr ⟨h2, h3⟩⟩
  · rw [List.concat_eq_append, ← List.cons_append, ← List.append_assoc] at h1
    have := List.append_inj' h1 rfl
    simp only [List.cons.injEq, and_true] at this
    obtain ⟨e1, rfl⟩ := this
    have h6 := h5 (q, b) (by simp)
    refine ⟨h6.2, h6.1, .inl ⟨pre, q', mid', e1, h2, h3, h4, ?_⟩⟩
    intro e he
    exact h5 e (by simp [he])

theorem implements_run {σ : Type} {U : FnObjects X K nc d n σ} {F : Functions X K nc d n} {Ready : Option (Fin nc) → X → σ → Prop}
    (hU : Implements U F Ready) {Q : R → List (CallRec X K nc d) → Prop} (t : Calls X K nc d n R) (l : List (CallRec X K nc d)) (s : σ)
    (ht : t.All DerivOk l Q) (hl : ∀ o x, EvaluatedAt o x l → Ready o x s) :
    (t.run U s l).1 = t.val F ∧ ∀ o x, EvaluatedAt o x (t.run U s l).2.2 → Ready o x (t.run U s l).2.1 := by
  induction t generalizing l s with
  | ret r => exact ⟨rfl, hl⟩
  | call q k ih =>
    have hr : q.order ≠ 0 → Ready q.obj q.point s := fun h => hl _ _ (ht.1 h _)
    have ha : (U q s).1 = F.ans q := by
      by_cases h0 : q.order = 0
      · exact hU.value q s h0
      · exact hU.deriv q s h0 (hr h0)
    have h2 := ih (U q s).1 (l ++ [(q, (U q s).1.isSome)]) (U q s).2 (ht.2 _) ?_
    · have h3 : ((k (U q s).1).run U (U q s).2 (l ++ [(q, (U q s).1.isSome)])).1 = (k (U q s).1).val F := h2.1
      refine ⟨?_, h2.2⟩
      show ((k (U q s).1).run U (U q s).2 (l ++ [(q, (U q s).1.isSome)])).1 = (k (F.ans q)).val F
      rw [h3, ha]
    · intro o x ho
      obtain ⟨hb, rfl, ho⟩ := evaluatedAt_snoc ho
      rw [ha] at hb
      by_cases h0 : q.order = 0 ∧ q.obj = o
      · rw [← h0.2]
        exact hU.ready q s h0.1 hb
      · rcases ho with ho | ho
        · exact hU.keep q s o hb (hl _ _ ho) (fun h e => h0 ⟨h, e.symm⟩) hr
        · exact absurd ho h0

/-! ### The parts of the solver -/

theorem cstrsP_val (F : Functions X K nc d n) [Zero K] (x : X) (is : List (Fin nc)) (acc : ∀ i, Fin (d i) → K) :
    (cstrsP x is acc).val F =
      if ∀ i ∈ is, (F.cstr i x).isSome then some fun i => if i ∈ is then (F.cstr i x).getD 0 else acc i else none := by
  induction is generalizing acc with
  | nil => simp [cstrsP, Calls.val]
  | cons i is ih =>
    show ((Calls.andThen (F.cstr i x) none fun v => cstrsP x is (Function.update acc i v)).val F) = _
    cases hv : F.cstr i x with
    | none => simp [Calls.andThen, Calls.val, hv]
    | some v =>
      show (cstrsP x is (Function.update acc i v)).val F = _
      rw [ih]
      by_cases hc : ∀ i ∈ is, (F.cstr i x).isSome
      · rw [if_pos hc, if_pos (by simpa [hv] using hc)]
        congr 1
        funext j
        by_cases hj : j ∈ is
        · simp [hj]
        · by_cases hji : j = i
          · subst hji; simp [hj, hv]
          · simp [hj, hji]
      · rw [if_neg hc, if_neg (by simpa [hv] using hc)]

theorem evaluateP_val [Zero K] (F : Functions X K nc d n) (C : StepCfg X K n (∑ i, d i)) (off : Fin nc → Bool) (x : X) :
    (evaluateP (n := n) x).val F = (F.cfg C off).eval x := by
  show ((Calls.andThen (F.cost x) none fun v => _).val F) = _
  unfold Functions.cfg
  dsimp only
  cases F.cost x with
  | none => rfl
  | some v =>
    rw [andThen_some, val_bind, cstrsP_val]
    simp only [List.mem_finRange, forall_true_left, if_true, Calls.val, Functions.cstrs, Option.bind_some]

theorem jacsP_val (F : Functions X K nc d n) (x : X) (is : List (Fin nc)) (acc : ∀ i, Fin (d i) → Fin n → K) :
    (jacsP x is acc).val F = some fun i => if i ∈ is then F.jac i x else acc i := by
  induction is generalizing acc with
  | nil => simp [jacsP, Calls.val]
  | cons i is ih =>
    show (jacsP x is (Function.update acc i (F.jac i x))).val F = _
    rw [ih]
    congr 1
    funext j
    by_cases hj : j ∈ is
    · simp [hj]
    · by_cases hji : j = i
      · subst hji; simp [hj]
      · simp [hj, hji]

theorem derivsP_val [Zero K] (F : Functions X K nc d n) (C : StepCfg X K n (∑ i, d i)) (off : Fin nc → Bool) (x : X) :
    (derivsP (n := n) x).val F = some ((F.cfg C off).grad x, (F.cfg C off).jac x) := by
  show (((jacsP x (List.finRange nc) fun _ _ _ => 0).bind fun r => Calls.ret (r.map fun J => (F.grad x, stackSegs J))).val F) = _
  rw [val_bind, jacsP_val]
  simp only [List.mem_finRange, if_true, Calls.val, Functions.cfg, Option.map_some]

theorem vhpsP_val [Zero K] (F : Functions X K nc d n) (off : Fin nc → Bool) (all : Bool) (x : X) (lam : Fin (∑ i, d i) → K)
    (is : List (Fin nc)) (acc : List (Bool × Matrix (Fin n) (Fin n) K)) :
    (vhpsP off all x lam is acc).val F =
      some (acc ++ is.map fun i => (off i, if !off i || all then F.vhp i x (segOf lam i) else 0)) := by
  induction is generalizing acc with
  | nil => simp [vhpsP, Calls.val]
  | cons i is ih =>
    unfold vhpsP
    by_cases hc : (!off i || all) = true
    · rw [if_pos hc]
      show (vhpsP off all x lam is (acc ++ [(off i, F.vhp i x (segOf lam i))])).val F = _
      rw [ih, List.map_cons, if_pos hc]
      simp
    · rw [if_neg hc, ih, List.map_cons, if_neg hc]
      simp

theorem hessP_val [Zero K] (F : Functions X K nc d n) (C : StepCfg X K n (∑ i, d i)) (off : Fin nc → Bool) (x : X)
    (lam : Fin (∑ i, d i) → K) :
    ∃ HV, (hessP (n := n) C.approx off x lam).val F = some HV ∧
      (C.approx ≠ .bfgs → C.approx ≠ .identity → HV = ((F.cfg C off).objHess x, (F.cfg C off).cstrVhp x lam)) := by
  have h3 : ∀ a : HessApprox, a ≠ .bfgs → a ≠ .identity → (hessP (n := n) a off x lam).val F =
      some (F.hess x, (List.finRange nc).map fun i => (off i, if !off i || a == .exact then F.vhp i x (segOf lam i) else 0)) := by
    intro a h1 h2
    have hv := vhpsP_val F off (a == .exact) x lam (List.finRange nc) []
    cases a with
    | bfgs => exact absurd rfl h1
    | identity => exact absurd rfl h2
    | _ =>
      show (((vhpsP off _ x lam (List.finRange nc) []).bind fun r => Calls.ret (r.map fun V => (F.hess x, V))).val F) = _
      rw [val_bind, hv]
      rfl
  by_cases h1 : C.approx = .bfgs
  · exact ⟨(0, []), by rw [h1]; rfl, fun h => absurd h1 h⟩
  · by_cases h2 : C.approx = .identity
    · exact ⟨(0, []), by rw [h2]; rfl, fun _ h => absurd h2 h⟩
    · exact ⟨_, h3 _ h1 h2, fun _ _ => rfl⟩

section
variable {B : Type} [Field K] [LinearOrder K]

/-- the workspace after the trials at the steps `tr` (last first) -/
def bufAfter (upd : K → B → B) : List K → B → B
  | [], b => b
  | a :: tr, b => upd a (bufAfter upd tr b)

theorem lsFirstP_val (F : Functions X K nc d n) {phiP : K → B → Calls X K nc d n (Option K × B)} {phi : K → Option K} {upd : K → B → B}
    (hphi : ∀ a b, (phiP a b).val F = (phi a, upd a b)) (alphaMin : K) (fuel : ℕ) (alpha : K) (tr : List K) (b0 : B) :
    ((lsFirstP phiP alphaMin fuel alpha tr (bufAfter upd tr b0)).val F).1 = lsFirst phi alphaMin fuel alpha tr ∧
      ∀ r, lsFirst phi alphaMin fuel alpha tr = some r →
        ((lsFirstP phiP alphaMin fuel alpha tr (bufAfter upd tr b0)).val F).2 = bufAfter upd r.2.2 b0 := by
  induction fuel generalizing alpha tr with
  | zero => exact ⟨rfl, by rintro r ⟨⟩⟩
  | succ fuel ih =>
    unfold lsFirstP lsFirst
    rw [val_bind, hphi]
    cases phi alpha with
    | some v => exact ⟨rfl, by rintro r ⟨⟩; rfl⟩
    | none =>
      dsimp only
      by_cases ha : alpha * (1 / 2) ≤ alphaMin
      · rw [if_pos ha, if_pos ha]
        exact ⟨rfl, by rintro r ⟨⟩; rfl⟩
      · rw [if_neg ha, if_neg ha]
        exact ih (alpha * (1 / 2)) (alpha :: tr)

theorem lsLoopP_val (F : Functions X K nc d n) (sqrt : K → K) (sing : LSSample K → LSSample K → K → K → Option K)
    {phiP : K → B → Calls X K nc d n (Option K × B)} {phi : K → Option K} {upd : K → B → B}
    (hphi : ∀ a b, (phiP a b).val F = (phi a, upd a b)) (o : LSOptions K) (phi0 dphi0 : K) (tr0 : List K) (k : ℕ) (alpha : K)
    (latest previous : LSSample K) (tr : List K) (b0 : B) :
    ((lsLoopP sqrt sing phiP o phi0 dphi0 tr0 k alpha latest previous tr (bufAfter upd (tr ++ tr0) b0)).val F) =
      (lsLoop sqrt sing phi o phi0 dphi0 tr0 k alpha latest previous tr,
        bufAfter upd ((lsLoop sqrt sing phi o phi0 dphi0 tr0 k alpha latest previous tr).trace ++
          (lsLoop sqrt sing phi o phi0 dphi0 tr0 k alpha latest previous tr).trace0) b0) := by
  induction k generalizing alpha latest previous tr with
  | zero => rfl
  | succ k ih =>
    unfold lsLoopP lsLoop
    by_cases hc : latest.phi - phi0 ≤ o.armijoC1 * alpha * dphi0
    · rw [if_pos hc, if_pos hc]; rfl
    · rw [if_neg hc, if_neg hc]
      dsimp only
      rw [val_bind, hphi]
      cases phi (lsNextAlpha sqrt sing o phi0 dphi0 alpha latest previous) with
      | none => exact ih _ _ _ (_ :: tr)
      | some v =>
        dsimp only
        by_cases ha : lsNextAlpha sqrt sing o phi0 dphi0 alpha latest previous ≤ o.alphaMin
        · rw [if_pos ha, if_pos ha]; rfl
        · rw [if_neg ha, if_neg ha]
          exact ih _ _ _ (_ :: tr)

theorem lsRunP_val (F : Functions X K nc d n) (sqrt : K → K) (sing : LSSample K → LSSample K → K → K → Option K)
    {phiP : K → B → Calls X K nc d n (Option K × B)} {phi : K → Option K} {upd : K → B → B}
    (hphi : ∀ a b, (phiP a b).val F = (phi a, upd a b)) (o : LSOptions K) (phi0 dphi0 : K) (fuel : ℕ) (b0 : B) :
    ((lsRunP sqrt sing phiP o phi0 dphi0 fuel b0).val F).1 = lsRun sqrt sing phi o phi0 dphi0 fuel ∧
      ∀ r, lsRun sqrt sing phi o phi0 dphi0 fuel = some r →
        ((lsRunP sqrt sing phiP o phi0 dphi0 fuel b0).val F).2 = bufAfter upd (r.trace ++ r.trace0) b0 := by
  obtain ⟨h1, h2⟩ := lsFirstP_val F hphi o.alphaMin fuel 1 [] b0
  have hb : bufAfter upd [] b0 = b0 := rfl
  rw [hb] at h1 h2
  unfold lsRunP lsRun
  rw [val_bind]
  revert h1 h2
  generalize (lsFirstP phiP o.alphaMin fuel 1 [] b0).val F = w
  obtain ⟨w1, w2⟩ := w
  dsimp only
  intro h1 h2
  subst h1
  cases hf : lsFirst phi o.alphaMin fuel 1 [] with
  | none => exact ⟨rfl, by rintro r ⟨⟩⟩
  | some r =>
    obtain ⟨alpha, latest, tr⟩ := r
    have h3 : w2 = bufAfter upd tr b0 := h2 _ hf
    subst h3
    dsimp only
    by_cases ha : |dphi0| < o.dphiThresh
    · rw [if_pos ha, if_pos ha]
      exact ⟨rfl, by rintro r ⟨⟩; rfl⟩
    · rw [if_neg ha, if_neg ha, val_bind]
      have h4 := lsLoopP_val F sqrt sing hphi o phi0 dphi0 tr o.maxNumSteps alpha latest LSSample.default [] b0
      rw [List.nil_append] at h4
      rw [h4]
      exact ⟨rfl, by rintro r ⟨⟩; rfl⟩

/-- the multipliers after a trial -/
def trialMults (F : Functions X K nc d n) (C : StepCfg X K n (∑ i, d i)) (off : Fin nc → Bool)
    (i : StepIn X K (Hidden K n (∑ i, d i)) n (∑ i, d i)) (dx : Fin n → K) (dlam : Fin (∑ i, d i) → K) (a : K) (b : Mults K (∑ i, d i)) :
    Mults K (∑ i, d i) :=
  match (F.cfg C off).eval (C.integrate i.x fun j => a * dx j) with
  | none => b
  | some fc => computeMultipliers C.sets i.mu i.setMu C.beta fc.2 (fun k => i.lam k + a * dlam k) i.lamPrev

theorem phiP_val (F : Functions X K nc d n) (C : StepCfg X K n (∑ i, d i)) (off : Fin nc → Bool)
    (i : StepIn X K (Hidden K n (∑ i, d i)) n (∑ i, d i)) (dx : Fin n → K) (dlam : Fin (∑ i, d i) → K) (a : K) (b : Mults K (∑ i, d i)) :
    (phiP C i dx dlam a b).val F = (stepPhi (F.cfg C off) i dx dlam a, trialMults F C off i dx dlam a b) := by
  unfold phiP stepPhi trialMults
  dsimp only
  rw [val_bind, evaluateP_val F C off]
  have hi : (F.cfg C off).integrate = C.integrate := rfl
  rw [hi]
  cases (F.cfg C off).eval (C.integrate i.x fun j => a * dx j) with
  | none => rfl
  | some fc => rfl

theorem bufAfter_lsBuffers (F : Functions X K nc d n) (C : StepCfg X K n (∑ i, d i)) (off : Fin nc → Bool)
    (i : StepIn X K (Hidden K n (∑ i, d i)) n (∑ i, d i)) (dx : Fin n → K) (dlam : Fin (∑ i, d i) → K) (tr : List K) (M : Mults K (∑ i, d i)) :
    bufAfter (trialMults F C off i dx dlam) tr M = lsBuffers (F.cfg C off) i M dx dlam tr := by
  have hi : (F.cfg C off).integrate = C.integrate := rfl
  induction tr with
  | nil => rfl
  | cons a tr ih =>
    show trialMults F C off i dx dlam a (bufAfter (trialMults F C off i dx dlam) tr M) = _
    rw [ih]
    unfold trialMults lsBuffers
    rw [List.findSome?_cons, hi]
    cases (F.cfg C off).eval (C.integrate i.x fun j => a * dx j) with
    | none => rfl
    | some fc => rfl

theorem stepP_val (F : Functions X K nc d n) (C : StepCfg X K n (∑ i, d i)) (off : Fin nc → Bool)
    (i : StepIn X K (Hidden K n (∑ i, d i)) n (∑ i, d i)) : (stepP C i).val F = stepFull (F.cfg C off) i := by
  unfold stepP stepFull
  dsimp only
  have hd : stepDirection (F.cfg C off) i (computeMultipliers (F.cfg C off).sets i.mu i.setMu (F.cfg C off).beta i.ev.c i.lam i.lamPrev) =
      stepDirection C i (computeMultipliers C.sets i.mu i.setMu C.beta i.ev.c i.lam i.lamPrev) := rfl
  rw [hd]
  cases stepDirection C i (computeMultipliers C.sets i.mu i.setMu C.beta i.ev.c i.lam i.lamPrev) with
  | error e => rfl
  | ok r =>
    obtain ⟨s, st⟩ := r
    dsimp only
    rw [val_bind]
    obtain ⟨h1, h2⟩ := lsRunP_val F C.sqrt C.sing
      (phiP_val F C off i (fun j => s (.inl j)) (fun k => s (.inr k))) C.ls i.ev.merit
      (dmeritDir i.rho C.beta i.setMu i.ev.grad i.ev.proxGrad i.ev.jac i.lam
        (computeMultipliers C.sets i.mu i.setMu C.beta i.ev.c i.lam i.lamPrev).lamsPdal (fun j => s (.inl j)) (fun k => s (.inr k)))
      C.fuel (computeMultipliers C.sets i.mu i.setMu C.beta i.ev.c i.lam i.lamPrev)
    have e1 : (F.cfg C off).sqrt = C.sqrt := rfl
    have e2 : (F.cfg C off).sing = C.sing := rfl
    have e3 : (F.cfg C off).ls = C.ls := rfl
    have e4 : (F.cfg C off).fuel = C.fuel := rfl
    have e5 : (F.cfg C off).beta = C.beta := rfl
    have e6 : (F.cfg C off).sets = C.sets := rfl
    have e7 : (F.cfg C off).integrate = C.integrate := rfl
    rw [e1, e2, e3, e4, e5, e6, e7]
    revert h1 h2
    generalize (lsRunP C.sqrt C.sing (phiP C i (fun j => s (.inl j)) (fun k => s (.inr k))) C.ls i.ev.merit
      (dmeritDir i.rho C.beta i.setMu i.ev.grad i.ev.proxGrad i.ev.jac i.lam
        (computeMultipliers C.sets i.mu i.setMu C.beta i.ev.c i.lam i.lamPrev).lamsPdal (fun j => s (.inl j)) (fun k => s (.inr k)))
      C.fuel (computeMultipliers C.sets i.mu i.setMu C.beta i.ev.c i.lam i.lamPrev)).val F = w
    obtain ⟨w1, w2⟩ := w
    dsimp only
    intro h1 h2
    subst h1
    cases hr : lsRun C.sqrt C.sing (stepPhi (F.cfg C off) i (fun j => s (.inl j)) (fun k => s (.inr k))) C.ls i.ev.merit
      (dmeritDir i.rho C.beta i.setMu i.ev.grad i.ev.proxGrad i.ev.jac i.lam
        (computeMultipliers C.sets i.mu i.setMu C.beta i.ev.c i.lam i.lamPrev).lamsPdal (fun j => s (.inl j)) (fun k => s (.inr k))) C.fuel with
    | none => rfl
    | some r =>
      have h3 := h2 r hr
      rw [bufAfter_lsBuffers] at h3
      rw [h3]
      rfl

theorem evalAt_withVals (F : Functions X K nc d n) (C : StepCfg X K n (∑ i, d i)) (off : Fin nc → Bool) (S : Settings K) (mu setMu rho : K)
    (target x : X) (lam lamPrev : Fin (∑ i, d i) → K) (fc : K × (Fin (∑ i, d i) → K)) (h : (F.cfg C off).eval x = some fc) :
    evalAt (concreteCtx (C.withVals fc ((F.cfg C off).grad x) ((F.cfg C off).jac x) 0 [])) S mu setMu rho target x lam lamPrev =
      evalAt (concreteCtx (F.cfg C off)) S mu setMu rho target x lam lamPrev := by
  unfold evalAt
  have : (concreteCtx (F.cfg C off)).eval x = some fc := h
  rw [this]
  rfl

theorem afterEval_withVals (F : Functions X K nc d n) (C : StepCfg X K n (∑ i, d i)) (off : Fin nc → Bool)
    (st : St X K (Hidden K n (∑ i, d i)) (∑ i, d i)) (ev : EvalOut K n (∑ i, d i)) (fc : K × (Fin (∑ i, d i) → K)) (g : Fin n → K)
    (J : Fin (∑ i, d i) → Fin n → K) (HV : Matrix (Fin n) (Fin n) K × List (Bool × Matrix (Fin n) (Fin n) K))
    (h : C.approx ≠ .bfgs → C.approx ≠ .identity → HV = ((F.cfg C off).objHess st.xOpt, (F.cfg C off).cstrVhp st.xOpt ev.lamsPdal)) :
    afterEval (concreteCtx (C.withVals fc g J HV.1 HV.2)) st ev = afterEval (concreteCtx (F.cfg C off)) st ev := by
  unfold afterEval
  have hu : hessUpdate (C.withVals fc g J HV.1 HV.2) st.hidden st.xOpt ev.grad ev.lamsPdal =
      hessUpdate (F.cfg C off) st.hidden st.xOpt ev.grad ev.lamsPdal := by
    unfold hessUpdate
    have e1 : (C.withVals fc g J HV.1 HV.2).approx = C.approx := rfl
    have e2 : (F.cfg C off).approx = C.approx := rfl
    rw [e1, e2]
    cases ha : C.approx with
    | bfgs => rfl
    | identity => rfl
    | _ =>
      have := h (by rw [ha]; simp) (by rw [ha]; simp)
      rw [this]
      rfl
  have hu' : (concreteCtx (C.withVals fc g J HV.1 HV.2)).updHess st.hidden st.xOpt ev.grad ev.lamsPdal =
      (concreteCtx (F.cfg C off)).updHess st.hidden st.xOpt ev.grad ev.lamsPdal := hu
  rw [hu']
  rfl

theorem innerP_val (F : Functions X K nc d n) (C : StepCfg X K n (∑ i, d i)) (off : Fin nc → Bool) (S : Settings K)
    (st : St X K (Hidden K n (∑ i, d i)) (∑ i, d i)) : (innerP C off S st).val F = innerLoop (concreteCtx (F.cfg C off)) S st := by
  induction hd : S.maxIters - st.numIters using Nat.strong_induction_on generalizing st with
  | _ v ih =>
  subst hd
  rw [innerP, innerLoop, val_bind, evaluateP_val F C off]
  cases hfc : (F.cfg C off).eval st.xOpt with
  | none =>
    have : evalAt (concreteCtx (F.cfg C off)) S st.mu st.setMu st.rho st.target st.xOpt st.lamsOpt st.lamsPrev = none := by
      unfold evalAt
      have : (concreteCtx (F.cfg C off)).eval st.xOpt = none := hfc
      rw [this]; rfl
    rw [this]; rfl
  | some fc =>
    rw [andThen_some, val_bind, derivsP_val F C off, andThen_some, evalAt_withVals F C off S _ _ _ _ _ _ _ fc hfc]
    cases evalAt (concreteCtx (F.cfg C off)) S st.mu st.setMu st.rho st.target st.xOpt st.lamsOpt st.lamsPrev with
    | none => rfl
    | some ev =>
      obtain ⟨HV, h1, h2⟩ := hessP_val F C off st.xOpt ev.lamsPdal
      rw [andThen_some, val_bind, h1, andThen_some]
      dsimp only
      rw [afterEval_withVals F C off st ev fc _ _ HV h2]
      by_cases hc : ev.innerCrit ≤ st.innerTol ∨ ev.outerCrit ≤ S.targetTol
      · rw [if_pos hc, if_pos hc]; rfl
      · rw [if_neg hc, if_neg hc, val_bind, stepP_val F C off]
        have hs : (concreteCtx (F.cfg C off)).step = stepFull (F.cfg C off) := rfl
        rw [hs]
        cases stepFull (F.cfg C off) (stepIn (afterEval (concreteCtx (F.cfg C off)) st ev) ev) with
        | error e => rfl
        | ok o =>
          dsimp only
          by_cases hm : st.numIters + 1 ≥ S.maxIters
          · rw [if_pos hm, if_pos hm]; rfl
          · rw [if_neg hm, if_neg hm]
            refine ih _ ?_ _ rfl
            show S.maxIters - (st.numIters + 1) < S.maxIters - st.numIters
            omega

theorem outerP_val (F : Functions X K nc d n) (C : StepCfg X K n (∑ i, d i)) (off : Fin nc → Bool) (S : Settings K)
    (st : St X K (Hidden K n (∑ i, d i)) (∑ i, d i)) : (outerP C off S st).val F = outerLoop (concreteCtx (F.cfg C off)) S st := by
  induction hd : S.maxAlIters - st.alIters using Nat.strong_induction_on generalizing st with
  | _ v ih =>
  subst hd
  rw [outerP, outerLoop]
  by_cases hc : st.numIters < S.maxIters ∧ st.alIters < S.maxAlIters
  · rw [if_pos hc, if_pos hc, val_bind, innerP_val F C off]
    have hs : startOuter (concreteCtx C) st = startOuter (concreteCtx (F.cfg C off)) st := rfl
    rw [hs]
    cases innerLoop (concreteCtx (F.cfg C off)) S (startOuter (concreteCtx (F.cfg C off)) st) with
    | error e => rfl
    | ok st1 =>
      dsimp only
      by_cases hm : max (afterInner S st1).prim (afterInner S st1).dual < S.targetTol
      · rw [if_pos hm, if_pos hm]; rfl
      · rw [if_neg hm, if_neg hm]
        refine ih _ ?_ _ rfl
        show S.maxAlIters - (st.alIters + 1) < S.maxAlIters - st.alIters
        omega
  · rw [if_neg hc, if_neg hc]; rfl

theorem solveP_val (F : Functions X K nc d n) (C : StepCfg X K n (∑ i, d i)) (off : Fin nc → Bool) (S : Settings K)
    (st : St X K (Hidden K n (∑ i, d i)) (∑ i, d i)) (x0 : X) (k : ℕ) (lams0 : Fin k → K) :
    (solveP C off S st x0 k lams0).val F = solve (concreteCtx (F.cfg C off)) S st x0 k lams0 := by
  unfold solveP solve
  by_cases hs : st.hasSetup = false
  · rw [if_pos hs, if_pos hs]; rfl
  · rw [if_neg hs, if_neg hs, val_bind, outerP_val F C off]
    cases outerLoop (concreteCtx (F.cfg C off)) S (initSolve S st x0 k lams0) with
    | error e => rfl
    | ok st1 => rfl

end

end ProxNLP
