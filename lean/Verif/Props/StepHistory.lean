import Verif.Props.Step
import Verif.Props.SolverHistory

/-!
C21 for the solver with the whole step modelled (`concreteCtx`): an exact or Gauss-Newton Hessian has no memory; and
C69, what a step leaves in the multiplier buffers.
-/

set_option linter.unusedSectionVars false
namespace ProxNLP

open Spec

variable {X K : Type} {n m : ℕ} [Field K] [LinearOrder K] [IsStrictOrderedRing K]

/-! ### C21 -/

/-- Without a proximal weight the proximal penalty is independent of its centre. -/
def Spec.ProxCentreFree (C : StepCfg X K n m) : Prop :=
  (∀ t t' x, C.proxVal 0 t x = C.proxVal 0 t' x) ∧ (∀ t t' x, C.proxGrad 0 t x = C.proxGrad 0 t' x) ∧
    (∀ t t' x, C.proxHess 0 t x = C.proxHess 0 t' x)

theorem Spec.ProxCentreFree.ctx {C : StepCfg X K n m} (h : ProxCentreFree C) : CentreFree (concreteCtx C) := by
  refine ⟨h.2.1, fun i t' h0 => ?_⟩
  have e1 : ∀ M, stepMatrix C { i with target := t' } M = stepMatrix C i M := by
    intro M
    simp only [stepMatrix, h0, h.2.2 t' i.target i.x]
  have e2 : ∀ M, stepDirection C { i with target := t' } M = stepDirection C i M := by
    intro M
    simp only [stepDirection, e1]
    rfl
  have e3 : ∀ dx dlam, stepPhi C { i with target := t' } dx dlam = stepPhi C i dx dlam := by
    intro dx dlam
    funext a
    simp only [stepPhi, h0]
    rw [show (fun fc : K × (Fin m → K) => _ + C.proxVal 0 t' _) = _ from by
      funext fc
      rw [h.1 t' i.target]]
  show stepFull C _ = stepFull C i
  simp only [stepFull, e2, e3]
  rfl

theorem inertiaLoop_prevFac (p : InertiaParams K) (hp : p.deltaInit ≤ p.deltaMax)
    (sig : Matrix (Fin n ⊕ Fin m) (Fin n ⊕ Fin m) K → List ℤ) (fuel : ℕ) (A : Matrix (Fin n ⊕ Fin m) (Fin n ⊕ Fin m) K)
    (d : K) (F F' : Option (Matrix (Fin n ⊕ Fin m) (Fin n ⊕ Fin m) K)) :
    inertiaLoop p sig fuel (inertiaStart p A d F) = inertiaLoop p sig fuel (inertiaStart p A d F') := by
  cases fuel with
  | zero => rfl
  | succ k =>
    simp only [inertiaLoop, inertiaStart, if_pos, hp, ne_eq, reduceCtorEq, not_false_eq_true, and_self]
    cases checkInertia n m (sig (if 0 < p.deltaInit then addPrimalDiag A p.deltaInit else A)) with
    | none => rfl
    | some f => cases f <;> rfl

theorem concrete_indist (C : StepCfg X K n m) (hA : C.approx ≠ .bfgs) (hd : C.inertia.deltaInit ≤ C.inertia.deltaMax) :
    Indist (concreteCtx C) (fun h h' => C.approx = .identity → h.vhps = h'.vhps)
      (fun h h' => (C.approx = .identity → h.vhps = h'.vhps) ∧ h.deltaLast = h'.deltaLast)
      (fun h h' => h.vhps = h'.vhps ∧ h.deltaLast = h'.deltaLast ∧ h.hess = h'.hess) where
  enter h h' e := ⟨e, rfl⟩
  upd h h' x g l e := by
    show (hessUpdate C h x g l).vhps = _ ∧ _ ∧ _
    simp only [concreteCtx, hessUpdate]
    cases ha : C.approx <;> simp_all
  step i h' e := by
    obtain ⟨ev, ed, eh⟩ := e
    have e1 : ∀ M, stepMatrix C { i with hidden := h' } M = stepMatrix C i M := by
      intro M
      simp only [stepMatrix, ev, eh]
    have e2 : ∀ M, stepDirection C { i with hidden := h' } M = stepDirection C i M := by
      intro M
      simp only [stepDirection, e1, ← ed]
      rw [inertiaLoop_prevFac C.inertia hd C.backend.sig C.fuel (stepMatrix C i M) i.hidden.deltaLast h'.fac i.hidden.fac]
      rfl
    show SameStep _ (stepFull C i) (stepFull C _)
    simp only [stepFull, e2]
    split
    · rename_i hx; simp only [hx, SameStep]
    · rename_i d st hx
      have e3 : ∀ dx dlam, stepPhi C { i with hidden := h' } dx dlam = stepPhi C i dx dlam := fun _ _ => rfl
      simp only [e3]
      split
      · rename_i hy; simp only [hy, SameStep]
      · rename_i r hy
        simp only [hy, SameStep]
        exact ⟨trivial, trivial, trivial, rfl, rfl, fun _ => ev, trivial⟩
  leave h h' e := e.1
  leave1 h h' e _ := e.1

/-- **C21 (partial), whole solver**: with the exact or the Gauss-Newton Hessian and no proximal term (the default
`rho_init = 0`), `solve(x0, lams0)` with multipliers of the right size gives the same outcome from *any* two states of
the solver object with the same registered callbacks — whatever points, multipliers, penalties, Hessians,
regularisation and factorisation earlier calls (returned or thrown) left in it.  Missing: see
`C21_reproducible_partial`. -/
theorem C21_any_state_partial (C : StepCfg X K n m) (hA : C.approx = .exact ∨ C.approx = .gaussNewton)
    (hd : C.inertia.deltaInit ≤ C.inertia.deltaMax) (hC : ProxCentreFree C) (S : Settings K) (hr : S.rhoInit = 0)
    (hi : 0 < S.maxIters) (ho : 0 < S.maxAlIters) (a b : St X K (Hidden K n m) m) (x0 : X) (lams0 : Fin m → K)
    (h1 : a.hasSetup = b.hasSetup) (h2 : a.callbacks = b.callbacks) :
    SameResult (SameResults fun _ _ => True) (solve (concreteCtx C) S a x0 m lams0)
      (solve (concreteCtx C) S b x0 m lams0) := by
  have hn : C.approx ≠ .bfgs := by rcases hA with h | h <;> rw [h] <;> decide
  have hn' : C.approx ≠ .identity := by rcases hA with h | h <;> rw [h] <;> decide
  have key := solve_same (concreteCtx C) S (concrete_indist C hn hd) a b x0 lams0 h1 h2 (fun h => absurd h hn')
    (Or.inr ⟨hr, hC.ctx⟩) hi ho
  revert key
  cases solve (concreteCtx C) S a x0 m lams0 <;> cases solve (concreteCtx C) S b x0 m lams0
  · exact id
  · exact id
  · exact id
  · intro h
    have h : SameResults _ _ _ := h
    show SameResults _ _ _
    exact { h with hidden := trivial }

/-- non-vacuity: the demo problem qualifies, and a solver that has already run differs from a fresh one -/
example : ProxCentreFree (Demo.quarter .exact .classic) ∧
    ∃ a, solve (concreteCtx (Demo.quarter .exact .classic)) Demo.oneIter
        (Demo.stepReady (Demo.quarter .exact .classic) Demo.oneIter) 1 0 Fin.elim0 = .ok a ∧
      a.hasSetup = (Demo.stepReady (Demo.quarter .exact .classic) Demo.oneIter).hasSetup ∧
      a.hidden.hess ≠ (Demo.stepReady (Demo.quarter .exact .classic) Demo.oneIter).hidden.hess := by
  refine ⟨⟨fun t t' x => ?_, fun t t' x => ?_, fun t t' x => ?_⟩, ?_⟩
  · simp [Demo.quarter]
  · simp [Demo.quarter]
  · rfl
  · obtain ⟨a, ha, hp⟩ := checkSolve_sound (concreteCtx (Demo.quarter .exact .classic)) Demo.oneIter 20
      (Demo.stepReady (Demo.quarter .exact .classic) Demo.oneIter) 1 0 Fin.elim0
      (fun s => decide (s.hasSetup = true ∧ s.hidden.hess 0 0 ≠ 0)) (by decide +kernel)
    have hp := of_decide_eq_true hp
    refine ⟨a, ha, hp.1, fun e => hp.2 ?_⟩
    rw [e]
    rfl

/-! ### C69: multiplier estimates left by a step -/

theorem lsLoop_last (sqrt : K → K) (sing : LSSample K → LSSample K → K → K → Option K) (phi : K → Option K)
    (hphi : ∀ a, phi a ≠ none) (o : LSOptions K) (phi0 dphi0 : K) (tr0 : List K) (k : ℕ) (alpha : K)
    (latest previous : LSSample K) (tr : List K) (h : (tr ++ tr0).head? = some alpha) :
    ∃ b, ((lsLoop sqrt sing phi o phi0 dphi0 tr0 k alpha latest previous tr).trace ++
        (lsLoop sqrt sing phi o phi0 dphi0 tr0 k alpha latest previous tr).trace0).head? = some b ∧
      (lsLoop sqrt sing phi o phi0 dphi0 tr0 k alpha latest previous tr).alpha = max b o.alphaMin := by
  induction k generalizing alpha latest previous tr with
  | zero => exact ⟨alpha, h, rfl⟩
  | succ k ih =>
    rw [lsLoop]
    by_cases hc : latest.phi - phi0 ≤ o.armijoC1 * alpha * dphi0
    · rw [if_pos hc]; exact ⟨alpha, h, rfl⟩
    · rw [if_neg hc]
      simp only
      cases hv : phi (lsNextAlpha sqrt sing o phi0 dphi0 alpha latest previous) with
      | none => exact absurd hv (hphi _)
      | some v =>
        simp only
        by_cases hm : lsNextAlpha sqrt sing o phi0 dphi0 alpha latest previous ≤ o.alphaMin
        · rw [if_pos hm]; exact ⟨_, rfl, rfl⟩
        · rw [if_neg hm]; exact ih _ _ _ _ rfl

theorem lsRun_last (sqrt : K → K) (sing : LSSample K → LSSample K → K → K → Option K) (phi : K → Option K)
    (hphi : ∀ a, phi a ≠ none) (o : LSOptions K) (phi0 dphi0 : K) (fuel : ℕ) (r : LSResult K)
    (h : lsRun sqrt sing phi o phi0 dphi0 fuel = some r) :
    ∃ b, (r.trace ++ r.trace0).head? = some b ∧ (r.alpha = b ∨ r.alpha = o.alphaMin) := by
  unfold lsRun at h
  cases fuel with
  | zero => simp [lsFirst] at h
  | succ k =>
    rw [lsFirst] at h
    cases h1 : phi 1 with
    | none => exact absurd h1 (hphi 1)
    | some v =>
      simp only [h1] at h
      split_ifs at h
      · injection h with h; subst h
        exact ⟨1, rfl, Or.inl rfl⟩
      · injection h with h
        obtain ⟨b, h2, h3⟩ := lsLoop_last sqrt sing phi hphi o phi0 dphi0 [1] o.maxNumSteps 1 (LSSample.mk' 1 v)
          LSSample.default [] rfl
        rw [h] at h2 h3
        exact ⟨b, h2, by rw [h3]; exact max_choice _ _⟩

theorem stepFull_buffers (C : StepCfg X K n m) (i : StepIn X K (Hidden K n m) n m)
    (o : StepOut X K (Hidden K n m) m) (h : stepFull C i = .ok o) :
    ∃ (dx : Fin n → K) (dlam : Fin m → K) (r : LSResult K) (dphi0 : K),
      lsRun C.sqrt C.sing (stepPhi C i dx dlam) C.ls i.ev.merit dphi0 C.fuel = some r ∧
      o.x = C.integrate i.x (r.alpha • dx) ∧ o.lam = i.lam + r.alpha • dlam ∧
      o.lamsPlus = (lsBuffers C i (computeMultipliers C.sets i.mu i.setMu C.beta i.ev.c i.lam i.lamPrev) dx dlam
        (r.trace ++ r.trace0)).lamsPlus ∧
      o.lamsPdal = (lsBuffers C i (computeMultipliers C.sets i.mu i.setMu C.beta i.ev.c i.lam i.lamPrev) dx dlam
        (r.trace ++ r.trace0)).lamsPdal := by
  unfold stepFull at h
  simp only at h
  split at h
  · cases h
  · rename_i d st hd
    split at h
    · cases h
    · rename_i r hr
      cases h
      exact ⟨fun j => d (.inl j), fun k => d (.inr k), r, _, hr, rfl, rfl, rfl, rfl⟩

/-- **C69, multiplier estimates**: the estimates a step leaves for the outer loop are those of one primal-dual point on
the segment that was searched, the constraint values and the multipliers being taken with the same step length; or
those of the current point if every trial evaluation threw. -/
theorem C69_estimates_of_one_point (C : StepCfg X K n m) (hls : GoodLS C.ls) (hsing : InRange C.sing)
    (i : StepIn X K (Hidden K n m) n m) (o : StepOut X K (Hidden K n m) m) (h : stepFull C i = .ok o) :
    ∃ (dx : Fin n → K) (dlam : Fin m → K) (a : K), o.x = C.integrate i.x (a • dx) ∧ o.lam = i.lam + a • dlam ∧
      ((∃ (b : K) (f : K) (c : Fin m → K), 0 ≤ b ∧ b ≤ 1 ∧ C.eval (C.integrate i.x (b • dx)) = some (f, c) ∧
          o.lamsPlus = (computeMultipliers C.sets i.mu i.setMu C.beta c (i.lam + b • dlam) i.lamPrev).lamsPlus ∧
          o.lamsPdal = (computeMultipliers C.sets i.mu i.setMu C.beta c (i.lam + b • dlam) i.lamPrev).lamsPdal) ∨
        (o.lamsPlus = (computeMultipliers C.sets i.mu i.setMu C.beta i.ev.c i.lam i.lamPrev).lamsPlus ∧
          o.lamsPdal = (computeMultipliers C.sets i.mu i.setMu C.beta i.ev.c i.lam i.lamPrev).lamsPdal)) := by
  obtain ⟨dx, dlam, r, dphi0, hr, hx, hl, h1, h2⟩ := stepFull_buffers C i o h
  refine ⟨dx, dlam, r.alpha, hx, hl, ?_⟩
  rw [h1, h2]
  unfold lsBuffers
  cases hf : (r.trace ++ r.trace0).findSome? fun a =>
      (C.eval (C.integrate i.x fun j => a * dx j)).map fun fc => (a, fc.2) with
  | none => exact Or.inr ⟨rfl, rfl⟩
  | some ac =>
    obtain ⟨b, c⟩ := ac
    left
    obtain ⟨a, ha, hac⟩ := List.exists_of_findSome?_eq_some hf
    rw [Option.map_eq_some_iff] at hac
    obtain ⟨fc, he, e⟩ := hac
    injection e with e1 e2
    subst e1 e2
    have hin := C28_trials_in_unit_interval C.sqrt C.sing hsing _ C.ls hls _ _ _ r hr a (by
      rw [List.mem_append] at ha ⊢; exact ha.symm)
    exact ⟨a, fc.1, fc.2, hin.1, hin.2, he, rfl, rfl⟩

/-- **C69, multiplier estimates at the accepted point**: if no evaluation throws and the accepted step length is above
`alpha_min`, the estimates left for the outer loop are those of the accepted primal-dual point. -/
theorem C69_estimates_accepted (C : StepCfg X K n m) (he : ∀ x, C.eval x ≠ none)
    (i : StepIn X K (Hidden K n m) n m) (o : StepOut X K (Hidden K n m) m) (h : stepFull C i = .ok o) :
    ∃ (dx : Fin n → K) (dlam : Fin m → K) (a : K), o.x = C.integrate i.x (a • dx) ∧ o.lam = i.lam + a • dlam ∧
      (a ≠ C.ls.alphaMin → ∃ f c, C.eval o.x = some (f, c) ∧
        o.lamsPlus = (computeMultipliers C.sets i.mu i.setMu C.beta c o.lam i.lamPrev).lamsPlus ∧
        o.lamsPdal = (computeMultipliers C.sets i.mu i.setMu C.beta c o.lam i.lamPrev).lamsPdal) := by
  obtain ⟨dx, dlam, r, dphi0, hr, hx, hl, h1, h2⟩ := stepFull_buffers C i o h
  refine ⟨dx, dlam, r.alpha, hx, hl, fun hne => ?_⟩
  obtain ⟨b, hb, hab⟩ := lsRun_last C.sqrt C.sing _ (by
    intro a hn
    unfold stepPhi at hn
    simp only [Option.map_eq_none_iff] at hn
    exact he _ hn) C.ls _ _ _ r hr
  have hab : r.alpha = b := hab.resolve_right hne
  subst hab
  obtain ⟨t, ht⟩ : ∃ t, r.trace ++ r.trace0 = r.alpha :: t := by
    cases hh : r.trace ++ r.trace0 with
    | nil => rw [hh] at hb; cases hb
    | cons y t => rw [hh] at hb; injection hb with hb; exact ⟨t, by rw [hb]⟩
  obtain ⟨fc, hfc⟩ := Option.ne_none_iff_exists'.mp (he (C.integrate i.x fun j => r.alpha * dx j))
  have e : ∀ M, lsBuffers C i M dx dlam (r.trace ++ r.trace0) =
      computeMultipliers C.sets i.mu i.setMu C.beta fc.2 (fun k => i.lam k + r.alpha * dlam k) i.lamPrev := by
    intro M
    unfold lsBuffers
    rw [ht, List.findSome?_cons, hfc]
    rfl
  refine ⟨fc.1, fc.2, by rw [hx]; exact hfc, ?_, ?_⟩
  · rw [h1, e, hl]; rfl
  · rw [h2, e, hl]; rfl

/-- non-vacuity: a step of the demo problem from `x = 2` is accepted with step length 1 -/
example : ∃ o, stepFull (Demo.quarter .exact .primalDual) Demo.stepInput = .ok o ∧
    (∀ x, (Demo.quarter .exact .primalDual).eval x ≠ none) ∧ o.x = 0 ∧
    (Demo.quarter .exact .primalDual).ls.alphaMin < 1 := by
  have h : (match stepFull (Demo.quarter .exact .primalDual) Demo.stepInput with
    | .ok o => decide (o.x = 0)
    | _ => false) = true := by decide +kernel
  cases ho : stepFull (Demo.quarter .exact .primalDual) Demo.stepInput with
  | error e => rw [ho] at h; cases h
  | ok o =>
    rw [ho] at h
    exact ⟨o, rfl, fun x => by simp [Demo.quarter], of_decide_eq_true h, by norm_num [Demo.quarter, Demo.lsOpts]⟩

end ProxNLP
