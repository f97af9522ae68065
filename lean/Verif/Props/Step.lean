import Verif.Model.Step
import Verif.Lemmas.SolverEval
import Verif.Props.Kkt
import Verif.Props.KktInertia
import Verif.Props.Inertia
import Verif.Props.Linesearch
import Verif.Props.Solver
import Mathlib.Data.List.Chain

/-!
Property theorems about the whole step and the iterates of `solve` with it: C69 (iterates stay on the manifold), C70
(Newton step), C71 (merit decrease), and the BFGS counterexample to C21.
-/

set_option linter.unusedSectionVars false
namespace ProxNLP

open Spec

variable {X K : Type} {n m : ℕ} [Field K] [LinearOrder K] [IsStrictOrderedRing K]

/-- The merit function searched by the concrete step is the one of C22. -/
theorem stepPhi_eq (C : StepCfg X K n m) (i : StepIn X K (Hidden K n m) n m) (dx : Fin n → K) (dlam : Fin m → K) :
    stepPhi C i dx dlam =
      phiEval (concreteCtx C) C.integrate C.beta i.mu i.setMu i.rho i.target i.x i.lam i.lamPrev dx dlam := rfl

/-! ### C69 -/

/-- `x'` is obtained from `x` by retracting along `a • d` with `lo ≤ a ≤ 1`. -/
def Spec.Retracts (integrate : X → (Fin n → K) → X) (lo : K) (x x' : X) : Prop :=
  ∃ (d : Fin n → K) (a : K), lo ≤ a ∧ a ≤ 1 ∧ x' = integrate x (a • d)

/-- Decomposition of a successful step. -/
theorem stepFull_ok (C : StepCfg X K n m) (i : StepIn X K (Hidden K n m) n m)
    (o : StepOut X K (Hidden K n m) m) (h : stepFull C i = .ok o) :
    ∃ (d : Fin n ⊕ Fin m → K) (st : InertiaSt K n m) (r : LSResult K),
      stepDirection C i (computeMultipliers C.sets i.mu i.setMu C.beta i.ev.c i.lam i.lamPrev) = .ok (d, st) ∧
      lsRun C.sqrt C.sing (stepPhi C i (fun j => d (.inl j)) (fun k => d (.inr k))) C.ls i.ev.merit
        (dmeritDir i.rho C.beta i.setMu i.ev.grad i.ev.proxGrad i.ev.jac i.lam
          (computeMultipliers C.sets i.mu i.setMu C.beta i.ev.c i.lam i.lamPrev).lamsPdal
          (fun j => d (.inl j)) (fun k => d (.inr k))) C.fuel = some r ∧
      o.x = C.integrate i.x (fun j => r.alpha * d (.inl j)) ∧
      o.lam = (fun k => i.lam k + r.alpha * d (.inr k)) ∧ o.merit = r.ret ∧
      o.hidden = { i.hidden with deltaLast := st.deltaLast, fac := st.fac } := by
  unfold stepFull at h
  simp only at h
  split at h
  · cases h
  · rename_i d st hd
    split at h
    · cases h
    · rename_i r hr
      cases h
      exact ⟨d, st, r, hd, hr, rfl, rfl, rfl, rfl⟩

/-- **C69, one step**: the primal and dual iterates move along one direction with one common step length in
`[alpha_min, 1]`. -/
theorem C69_step_common_length (C : StepCfg X K n m) (hls : GoodLS C.ls) (hsing : InRange C.sing)
    (i : StepIn X K (Hidden K n m) n m) (o : StepOut X K (Hidden K n m) m) (h : stepFull C i = .ok o) :
    ∃ (dx : Fin n → K) (dlam : Fin m → K) (a : K), C.ls.alphaMin ≤ a ∧ a ≤ 1 ∧
      o.x = C.integrate i.x (a • dx) ∧ o.lam = i.lam + a • dlam := by
  obtain ⟨d, st, r, -, hr, hx, hl, -⟩ := stepFull_ok C i o h
  obtain ⟨h1, h2⟩ := C28_alpha_range C.sqrt C.sing hsing _ C.ls hls _ _ _ r hr
  exact ⟨fun j => d (.inl j), fun k => d (.inr k), r.alpha, h1, h2, hx, hl⟩

theorem innerLoop_chain {H : Type} (P : Ctx X K H n m) (S : Settings K) (R : X → X → Prop)
    (hR : ∀ i o, P.step i = .ok o → R i.x o.x) (st st' : St X K H m) (h : innerLoop P S st = .ok st') :
    ∃ l : List (X × (Fin m → K)), st'.accepted = st.accepted ++ l ∧
      (st.xOpt :: l.map Prod.fst).IsChain R ∧ (st.xOpt :: l.map Prod.fst).getLast (by simp) = st'.xOpt := by
  refine innerLoop_ind P S (R := fun st st' => ∃ l : List (X × (Fin m → K)), st'.accepted = st.accepted ++ l ∧
      (st.xOpt :: l.map Prod.fst).IsChain R ∧ (st.xOpt :: l.map Prod.fst).getLast (by simp) = st'.xOpt)
    ?_ ?_ ?_ st st' h
  · intro st ev _ _
    exact ⟨[], by simp [afterEval], by simp, by simp [afterEval]⟩
  · intro st ev o _ _ ho _
    refine ⟨[(o.x, o.lam)], rfl, ?_, rfl⟩
    rw [List.map_cons, List.map_nil, List.isChain_cons_cons]
    exact ⟨hR _ _ ho, by simp⟩
  · intro st st' ev o _ _ ho _ _ ⟨l, h1, h2, h3⟩
    refine ⟨(o.x, o.lam) :: l, ?_, ?_, ?_⟩
    · rw [h1]; show (st.accepted ++ [(o.x, o.lam)]) ++ l = _; simp
    · rw [List.map_cons, List.isChain_cons_cons]
      exact ⟨hR _ _ ho, h2⟩
    · rw [← h3]; rfl

theorem outerLoop_chain {H : Type} (P : Ctx X K H n m) (S : Settings K) (R : X → X → Prop)
    (hR : ∀ i o, P.step i = .ok o → R i.x o.x) (st st' : St X K H m) (h : outerLoop P S st = .ok st') :
    ∃ l : List (X × (Fin m → K)), st'.accepted = st.accepted ++ l ∧
      (st.xOpt :: l.map Prod.fst).IsChain R ∧ (st.xOpt :: l.map Prod.fst).getLast (by simp) = st'.xOpt := by
  have hax : ∀ s : St X K H m, (afterInner S s).xOpt = s.xOpt := by
    intro s
    unfold afterInner updateToleranceSuccess updateToleranceFailure acceptMultipliers updatePenalty
      tolerancePostUpdate setPenalty
    simp only
    split_ifs <;> rfl
  refine outerLoop_ind P S (R := fun st st' => ∃ l : List (X × (Fin m → K)), st'.accepted = st.accepted ++ l ∧
      (st.xOpt :: l.map Prod.fst).IsChain R ∧ (st.xOpt :: l.map Prod.fst).getLast (by simp) = st'.xOpt)
    ?_ ?_ ?_ st st' h
  · intro st _
    exact ⟨[], by simp, by simp, by simp⟩
  · intro st st1 _ _ hin _
    obtain ⟨l, h1, h2, h3⟩ := innerLoop_chain P S R hR _ _ hin
    refine ⟨l, ?_, h2, ?_⟩
    · show (afterInner S st1).accepted = _
      rw [afterInner_accepted, h1]; rfl
    · show _ = (afterInner S st1).xOpt
      rw [hax, ← h3]; rfl
  · intro st st1 st' _ _ hin _ _ ⟨l', h1', h2', h3'⟩
    obtain ⟨l, h1, h2, h3⟩ := innerLoop_chain P S R hR _ _ hin
    have e1 : (nextOuter S st st1).accepted = st1.accepted := afterInner_accepted S st1
    have e2 : (nextOuter S st st1).xOpt = st1.xOpt := hax st1
    rw [e2] at h2' h3'
    refine ⟨l ++ l', ?_, ?_, ?_⟩
    · rw [h1', e1, h1]; simp [startOuter]
    · rw [List.map_append]
      have h2 : (st.xOpt :: l.map Prod.fst).IsChain R := h2
      have h3 : (st.xOpt :: l.map Prod.fst).getLast (by simp) = st1.xOpt := h3
      rw [← List.cons_append, List.isChain_append]
      refine ⟨h2, h2'.tail, ?_⟩
      intro a ha b hb
      rw [List.getLast?_eq_some_getLast (by simp), h3] at ha
      cases ha
      cases l' with
      | nil => simp at hb
      | cons c l' =>
        simp only [List.map_cons, List.head?_cons, Option.mem_def, Option.some.injEq] at hb
        subst hb
        rw [List.map_cons, List.isChain_cons_cons] at h2'
        exact h2'.1
    · cases l' with
      | nil => rw [← h3']; simp only [List.append_nil, List.map_nil, List.getLast_singleton]; rw [← h3]; rfl
      | cons c l' =>
        rw [← h3']
        simp [List.getLast_append]

/-- **C69, iterates**: in every run of `solve` that returns, the accepted primal iterates, starting at `x0`, are each
the retraction of the one before along a tangent vector with step length in `[alpha_min, 1]`; the returned point is
the last of them (`x0` itself if no step was taken). -/
theorem C69_iterates_retract (C : StepCfg X K n m) (hls : GoodLS C.ls) (hsing : InRange C.sing) (S : Settings K)
    (st st' : St X K (Hidden K n m) m) (x0 : X) (k : ℕ) (lams0 : Fin k → K)
    (h : solve (concreteCtx C) S st x0 k lams0 = .ok st') :
    (x0 :: st'.accepted.map Prod.fst).IsChain (Retracts C.integrate C.ls.alphaMin) ∧
    (x0 :: st'.accepted.map Prod.fst).getLast? = some st'.xOpt := by
  obtain ⟨-, stf, hf, rfl⟩ := solve_ok _ _ _ _ _ _ _ h
  obtain ⟨l, h1, h2, h3⟩ := outerLoop_chain (concreteCtx C) S (Retracts C.integrate C.ls.alphaMin) (by
    intro i o ho
    obtain ⟨dx, dlam, a, ha, ha1, hx, -⟩ := C69_step_common_length C hls hsing i o ho
    exact ⟨dx, a, ha, ha1, hx⟩) _ _ hf
  have e1 : (initSolve S st x0 k lams0).accepted = [] := by unfold initSolve; simp only
  have e2 : (initSolve S st x0 k lams0).xOpt = x0 := by
    unfold initSolve updateToleranceFailure tolerancePostUpdate setPenalty setProxParameter
    split_ifs <;> rfl
  rw [e1, List.nil_append] at h1
  rw [e2] at h2 h3
  have e3 : (invokeCallbacks stf).accepted = l := h1
  rw [e3]
  exact ⟨h2, by rw [List.getLast?_eq_some_getLast (by simp), h3]; rfl⟩

/-- **C69**: a property of points preserved by the retraction (lying on the manifold, unit norm, a conserved
coordinate, ...) that `x0` has is shared by every accepted iterate and by the returned point. -/
theorem C69_stays_on_manifold (C : StepCfg X K n m) (S : Settings K) (M : X → Prop)
    (hM : ∀ x d, M x → M (C.integrate x d)) (st st' : St X K (Hidden K n m) m) (x0 : X) (h0 : M x0) (k : ℕ)
    (lams0 : Fin k → K) (h : solve (concreteCtx C) S st x0 k lams0 = .ok st') :
    M st'.xOpt ∧ ∀ p ∈ st'.accepted, M p.1 := by
  obtain ⟨-, stf, hf, rfl⟩ := solve_ok _ _ _ _ _ _ _ h
  obtain ⟨l, h1, h2, h3⟩ := outerLoop_chain (concreteCtx C) S (fun x y => M x → M y) (by
    intro i o ho hx
    obtain ⟨d, s, r, -, -, e, -⟩ := stepFull_ok C i o ho
    rw [e]; exact hM _ _ hx) _ _ hf
  have e1 : (initSolve S st x0 k lams0).accepted = [] := by unfold initSolve; simp only
  have e2 : (initSolve S st x0 k lams0).xOpt = x0 := by
    unfold initSolve updateToleranceFailure tolerancePostUpdate setPenalty setProxParameter
    split_ifs <;> rfl
  rw [e1, List.nil_append] at h1
  rw [e2] at h2 h3
  have all : ∀ (t : List X) (x : X), M x → (x :: t).IsChain (fun x y => M x → M y) → ∀ y ∈ x :: t, M y := by
    intro t
    induction t with
    | nil => intro x hx _ y hy; simp only [List.mem_singleton] at hy; subst hy; exact hx
    | cons z t ih =>
      intro x hx hc y hy
      rw [List.isChain_cons_cons] at hc
      rcases List.mem_cons.1 hy with rfl | hy
      · exact hx
      · exact ih z (hc.1 hx) hc.2 y hy
  have hall := all _ _ h0 h2
  refine ⟨?_, ?_⟩
  · show M stf.xOpt
    rw [← h3]; exact hall _ (List.getLast_mem _)
  · intro p hp
    have hp : p ∈ stf.accepted := hp
    rw [h1] at hp
    exact hall _ (List.mem_cons_of_mem _ (List.mem_map_of_mem hp))


/-! ### C70, C71 -/

/-- The linear solver is exact and reports inertia correctly: the signature has entries in {-1, 0, 1}, passes the
inertia check exactly for symmetric matrices with `n` positive, `m` negative and no zero eigenvalue, and
`solveInPlace` solves with a factorised matrix of that inertia. -/
structure Spec.ExactBackend (B : Backend K n m) : Prop where
  entries : ∀ A, ∀ s ∈ B.sig A, s = 1 ∨ s = -1 ∨ s = 0
  inertia : ∀ A : Matrix (Fin n ⊕ Fin m) (Fin n ⊕ Fin m) K, A.IsSymm →
    (checkInertia n m (B.sig A) = some .ok ↔ HasInertia A n m 0)
  solves : ∀ A : Matrix (Fin n ⊕ Fin m) (Fin n ⊕ Fin m) K, A.IsSymm → HasInertia A n m 0 → ∀ b a,
    ∑ c, A (finSumFinEquiv.symm a) (finSumFinEquiv.symm c) * B.solve A b c = b a

/-- The linear solver works on the matrix `A`: the reported signature passes the inertia check and `solveInPlace` solves
the system. -/
def Spec.ExactAt (B : Backend K n m) (A : Matrix (Fin n ⊕ Fin m) (Fin n ⊕ Fin m) K) : Prop :=
  checkInertia n m (B.sig A) = some .ok ∧
  ∀ b a, ∑ c, A (finSumFinEquiv.symm a) (finSumFinEquiv.symm c) * B.solve A b c = b a

theorem ExactBackend.exactAt {B : Backend K n m} (hB : ExactBackend B) {A : Matrix (Fin n ⊕ Fin m) (Fin n ⊕ Fin m) K}
    (hsym : A.IsSymm) (hI : HasInertia A n m 0) : ExactAt B A :=
  ⟨(hB.inertia _ hsym).2 hI, hB.solves _ hsym hI⟩

/-- Direction computed when the linear solver works on the assembled matrix and regularisation starts at zero. -/
theorem stepDirection_exact (C : StepCfg X K n m) (hp : GoodParams C.inertia) (h0 : C.inertia.deltaInit = 0)
    (hmax : 0 ≤ C.inertia.deltaMax) (i : StepIn X K (Hidden K n m) n m) (M : Mults K m)
    (hB : ExactAt C.backend (stepMatrix C i M))
    (d : Fin n ⊕ Fin m → K) (st : InertiaSt K n m) (h : stepDirection C i M = .ok (d, st)) :
    (stepMatrix C i M).mulVec d = -stepRhs C i M ∧ st.deltaLast = 0 ∧ st.fac = some (stepMatrix C i M) := by
  unfold stepDirection at h
  simp only at h
  split at h
  · cases h
  · cases h
  · rename_i st1 hst
    have hck := hB.1
    have hone : ∀ fuel, inertiaLoop C.inertia C.backend.sig fuel
        (inertiaStart C.inertia (stepMatrix C i M) i.hidden.deltaLast i.hidden.fac) = some (.ok st1) →
        st1.mat = stepMatrix C i M ∧ st1.deltaLast = 0 ∧ st1.fac = some (stepMatrix C i M) := by
      intro fuel hst
      cases fuel with
      | zero => simp [inertiaLoop] at hst
      | succ fuel =>
        have hs := inertiaLoop_succ C.inertia C.backend.sig fuel
          (inertiaStart C.inertia (stepMatrix C i M) i.hidden.deltaLast i.hidden.fac)
          (by simp [inertiaStart]) (by simp [inertiaStart, h0, hmax]) (by simp [inertiaStart, h0]) .ok (by
            simp only [inertiaStart, h0]; rw [shifted_zero]; exact hck)
        rw [hs] at hst
        simp only [if_true, inertiaStart, h0, shifted_zero, Option.some.injEq, Except.ok.injEq] at hst
        rw [← hst]
        simp
    obtain ⟨e1, e2, e3⟩ := hone _ hst
    split at h
    · rename_i hn; rw [e3] at hn; cases hn
    · rename_i F hF
      rw [e3] at hF
      cases hF
      simp only [Except.ok.injEq, Prod.mk.injEq] at h
      obtain ⟨hd, rfl⟩ := h
      rw [e1] at hd
      refine ⟨?_, e2, e3⟩
      generalize hr : iterativeRefinement (fun a b => stepMatrix C i M (finSumFinEquiv.symm a) (finSumFinEquiv.symm b))
        (fun a => stepRhs C i M (finSumFinEquiv.symm a)) C.refineTol (C.backend.solve (stepMatrix C i M))
        C.refineSteps = r at hd
      obtain ⟨ok, s, cnt⟩ := r
      have hex := (C27_refinement_exact _ _ _ _ (by
        intro b
        funext a
        simp only [Matrix.mulVec, dotProduct, Matrix.of_apply]
        exact hB.2 b a) _ ok s cnt hr).1
      funext a
      have := congrFun hex (finSumFinEquiv a)
      simp only [Matrix.mulVec, dotProduct, Matrix.of_apply, Equiv.symm_apply_apply, Pi.neg_apply] at this ⊢
      rw [← this, ← hd]
      exact Fintype.sum_equiv finSumFinEquiv _ _ (fun c => by simp)

/-- **C70**: with no initial regularisation and a linear solver that works on the assembled matrix (an exact one and a matrix
of the right inertia; see C79 for the solvers of the library), the accepted step is `a` times the solution of the semismooth Newton system of the optimality conditions, in either KKT
mode; no regularisation is added. -/
theorem C70_newton_step (C : StepCfg X K n m) (hp : GoodParams C.inertia) (h0 : C.inertia.deltaInit = 0)
    (hmax : 0 ≤ C.inertia.deltaMax) (hls : GoodLS C.ls) (hsing : InRange C.sing)
    (i : StepIn X K (Hidden K n m) n m) (hmu : i.mu ≠ 0) (M : Mults K m)
    (hM : M = computeMultipliers C.sets i.mu i.setMu C.beta i.ev.c i.lam i.lamPrev)
    (hB : ExactAt C.backend (stepMatrix C i M))
    (o : StepOut X K (Hidden K n m) m) (h : stepFull C i = .ok o) :
    ∃ (dx : Fin n → K) (dlam : Fin m → K) (a : K), C.ls.alphaMin ≤ a ∧ a ≤ 1 ∧
      o.x = C.integrate i.x (a • dx) ∧ o.lam = i.lam + a • dlam ∧ o.hidden.deltaLast = 0 ∧
      Newton C.kkt i.mu
        (kktHessian (C.approx == .exact) i.rho i.hidden.hess (C.proxHess i.rho i.target i.x) i.hidden.vhps) i.ev.jac
        (fun k => keptRows C.kkt C.sets i.setMu M k = true)
        (rhsPrimal i.rho i.ev.grad i.ev.proxGrad i.ev.jac i.lam) (rhsDual C.kkt i.mu M i.lam) dx dlam := by
  obtain ⟨d, st, r, hd, hr, hx, hl, -, hh⟩ := stepFull_ok C i o h
  rw [← hM] at hd
  obtain ⟨hsol, hdl, -⟩ := stepDirection_exact C hp h0 hmax i M hB d st hd
  obtain ⟨h1, h2⟩ := C28_alpha_range C.sqrt C.sing hsing _ C.ls hls _ _ _ r hr
  refine ⟨fun j => d (.inl j), fun k => d (.inr k), r.alpha, h1, h2, hx, hl, by rw [hh]; exact hdl, ?_⟩
  refine (C23_symmetric_iff_newton C.kkt C.sets i.mu i.setMu C.beta i.rho hmu _ i.ev.jac i.ev.grad i.ev.proxGrad
    i.ev.c i.lam i.lamPrev _ _ M hM).1 ?_
  have he : Sum.elim (fun j => d (.inl j)) (fun k => d (.inr k)) = d := by
    funext a; cases a <;> rfl
  rw [he]
  exact hsol

/-- **C71**: in the primal-dual KKT mode, under the hypotheses of C70, with a merit function that does not throw along
the search and quadratic or bisection interpolation, a step away from a point that is not optimal for the subproblem
strictly decreases the merit function (by the Armijo amount), unless the line search was left by one of its three
emergency exits (slope below `dphi_thresh`, step at `alpha_min`, maximal number of trials). -/
theorem C71_merit_decreases (C : StepCfg X K n m) (hp : GoodParams C.inertia) (h0 : C.inertia.deltaInit = 0)
    (hmax : 0 ≤ C.inertia.deltaMax) (hls : GoodLS C.ls)
    (hc1 : 0 < C.ls.armijoC1) (hth : 0 < C.ls.dphiThresh) (hint : C.ls.interp ≠ .cubic)
    (hsing : InRange C.sing) (hkkt : C.kkt = .primalDual) (hbeta : C.beta = 1 / 2)
    (i : StepIn X K (Hidden K n m) n m) (hmu : 0 < i.mu) (hset : i.setMu = i.mu) (M : Mults K m)
    (hM : M = computeMultipliers C.sets i.mu i.setMu C.beta i.ev.c i.lam i.lamPrev)
    (hB : ExactAt C.backend (stepMatrix C i M)) (hI : HasInertia (stepMatrix C i M) n m 0)
    (hres : ¬ (rhsPrimal i.rho i.ev.grad i.ev.proxGrad i.ev.jac i.lam = 0 ∧ rhsDual C.kkt i.mu M i.lam = 0))
    (htot : ∀ x, C.eval x ≠ none)
    (o : StepOut X K (Hidden K n m) m) (h : stepFull C i = .ok o) :
    ∃ (dx : Fin n → K) (dlam : Fin m → K) (slope : K) (r : LSResult K),
      slope = dmeritDir i.rho C.beta i.setMu i.ev.grad i.ev.proxGrad i.ev.jac i.lam M.lamsPdal dx dlam ∧
      lsRun C.sqrt C.sing (stepPhi C i dx dlam) C.ls i.ev.merit slope C.fuel = some r ∧
      o.x = C.integrate i.x (r.alpha • dx) ∧ o.lam = i.lam + r.alpha • dlam ∧ slope < 0 ∧
      stepPhi C i dx dlam r.alpha = some o.merit ∧
      ((o.merit ≤ i.ev.merit + C.ls.armijoC1 * r.alpha * slope ∧ o.merit < i.ev.merit) ∨
        |slope| < C.ls.dphiThresh ∨ r.alpha = C.ls.alphaMin ∨ r.trace.length = C.ls.maxNumSteps) := by
  obtain ⟨d, st, r, hd, hr, hx, hl, hmer, hh⟩ := stepFull_ok C i o h
  rw [← hM] at hd hr
  obtain ⟨hsol, hdl, -⟩ := stepDirection_exact C hp h0 hmax i M hB d st hd
  obtain ⟨h1, h2⟩ := C28_alpha_range C.sqrt C.sing hsing _ C.ls hls _ _ _ r hr
  have he : Sum.elim (fun j => d (.inl j)) (fun k => d (.inr k)) = d := by
    funext a; cases a <;> rfl
  have hslope : dmeritDir i.rho C.beta i.setMu i.ev.grad i.ev.proxGrad i.ev.jac i.lam M.lamsPdal
      (fun j => d (.inl j)) (fun k => d (.inr k)) < 0 := by
    rw [hset, hbeta]
    rw [hset, hbeta] at hM
    refine C68_descent_primal_dual C.sets i.mu i.rho hmu
      (kktHessian (C.approx == .exact) i.rho i.hidden.hess (C.proxHess i.rho i.target i.x) i.hidden.vhps) i.ev.jac
      i.ev.grad i.ev.proxGrad i.ev.c i.lam i.lamPrev _ _ M hM (stepMatrix C i M) ?_ hI ?_ ?_
    · simp only [stepMatrix, hkkt, hset]
    · rw [he, hsol]
      simp only [stepRhs, hkkt, hset]
    · rw [hkkt] at hres; exact hres
  have htotphi : ∀ a, stepPhi C i (fun j => d (.inl j)) (fun k => d (.inr k)) a ≠ none := by
    intro a
    unfold stepPhi
    simp only [ne_eq, Option.map_eq_none_iff]
    exact htot _
  have hval := C29_value_partial C.sqrt C.sing (stepPhi C i (fun j => d (.inl j)) (fun k => d (.inr k)))
    (fun a b _ hn => absurd hn (htotphi a)) C.ls hls hint hth ⟨0, htotphi _, Or.inl rfl⟩ _ _ _ r hr
  refine ⟨fun j => d (.inl j), fun k => d (.inr k), _, r, rfl, hr, hx, hl, hslope, ?_, ?_⟩
  · rw [hval, hmer]
  · rcases C30_armijo_or_exit _ _ _ _ _ _ _ r hr with hA | hA | hA | hA
    · left
      rw [hmer]
      refine ⟨hA, lt_of_le_of_lt hA ?_⟩
      have : C.ls.armijoC1 * r.alpha * dmeritDir i.rho C.beta i.setMu i.ev.grad i.ev.proxGrad i.ev.jac i.lam M.lamsPdal
          (fun j => d (.inl j)) (fun k => d (.inr k)) < 0 :=
        mul_neg_of_pos_of_neg (mul_pos hc1 (lt_of_lt_of_le hls.amin h1)) hslope
      linarith
    · exact Or.inr (Or.inl hA)
    · exact Or.inr (Or.inr (Or.inl hA))
    · exact Or.inr (Or.inr (Or.inr hA))

/-! ### C72 -/

theorem inertiaLoop_fac (p : InertiaParams K) (sig : Matrix (Fin n ⊕ Fin m) (Fin n ⊕ Fin m) K → List ℤ) (fuel : ℕ)
    (st st' : InertiaSt K n m) (h : inertiaLoop p sig fuel st = some (.ok st'))
    (h0 : st.fac.isSome ∨ (st.flag ≠ .ok ∧ st.delta ≤ p.deltaMax)) : st'.fac.isSome := by
  induction fuel generalizing st with
  | zero => simp [inertiaLoop] at h
  | succ fuel ih =>
    rw [inertiaLoop] at h
    by_cases hc : st.flag ≠ .ok ∧ st.delta ≤ p.deltaMax
    · rw [if_pos hc] at h
      simp only at h
      split at h
      · cases h
      · cases h; rfl
      · split_ifs at h <;> exact ih _ h (Or.inl rfl)
    · rw [if_neg hc] at h
      cases h
      rcases h0 with h0 | h0
      · exact h0
      · exact absurd h0 hc

/-- **C72, one step**: for settings as in C25/C28 with `DELTA_INIT ≤ DELTA_MAX` there is a bound on the number of
passes of the loops of a step (regularisation and line search), the same for every problem, point, penalty and linear
solver, within which the computation of the step ends, and it throws nothing. -/
theorem C72_step_returns [Archimedean K] (p : InertiaParams K) (hp : GoodParams p) (hle : p.deltaInit ≤ p.deltaMax)
    (ls : LSOptions K) (hls : GoodLS ls) :
    ∃ N, ∀ {X : Type} (C : StepCfg X K n m), C.inertia = p → C.ls = ls → N ≤ C.fuel →
      (∀ A, ∀ s ∈ C.backend.sig A, s = 1 ∨ s = -1 ∨ s = 0) →
      ∀ i : StepIn X K (Hidden K n m) n m, ∃ o, stepFull C i = .ok o := by
  obtain ⟨N1, hN1⟩ := C25_regularisation_loop (n := n) (m := m) p hp
  obtain ⟨N2, hN2⟩ := exists_pow_lt_of_lt_one hls.amin (by norm_num : (1 / 2 : K) < 1)
  refine ⟨max N1 (N2 + 1), fun {X} C hCp hCl hf hsig i => ?_⟩
  obtain ⟨st, hst, -⟩ := hN1 C.backend.sig hsig
    (stepMatrix C i (computeMultipliers C.sets i.mu i.setMu C.beta i.ev.c i.lam i.lamPrev)) i.hidden.deltaLast
    i.hidden.fac C.fuel (le_trans (le_max_left _ _) hf)
  rw [← hCp] at hst
  have hfac := inertiaLoop_fac _ _ _ _ _ hst (Or.inr ⟨by simp [inertiaStart], by simpa [inertiaStart, hCp] using hle⟩)
  obtain ⟨F, hF⟩ := Option.isSome_iff_exists.1 hfac
  unfold stepFull stepDirection
  simp only [hst, hF]
  generalize hd : dmeritDir i.rho C.beta i.setMu i.ev.grad i.ev.proxGrad i.ev.jac i.lam _ _ _ = slope
  generalize hphi : stepPhi C i _ _ = phi
  obtain ⟨r, hr, -⟩ := C32_terminates_bound C.sqrt C.sing phi C.ls i.ev.merit slope N2 (by
    rw [hCl]
    refine le_trans ?_ hN2.le
    rw [pow_succ]
    exact mul_le_of_le_one_right (by positivity) (by norm_num)) C.fuel (le_trans (le_max_right _ _) hf)
  simp only [hr]
  exact ⟨_, rfl⟩

theorem innerLoop_returns {H : Type} (P : Ctx X K H n m) (S : Settings K) (he : ∀ x, P.eval x ≠ none)
    (hs : ∀ i, ∃ o, P.step i = .ok o) (st : St X K H m) : ∃ st', innerLoop P S st = .ok st' := by
  generalize hk : S.maxIters - st.numIters = k
  induction k using Nat.strong_induction_on generalizing st with
  | _ k ih =>
    obtain ⟨fc, hfc⟩ := Option.ne_none_iff_exists'.1 (he st.xOpt)
    rw [innerLoop]
    obtain ⟨ev, hev⟩ : ∃ ev, evalAt P S st.mu st.setMu st.rho st.target st.xOpt st.lamsOpt st.lamsPrev = some ev := by
      unfold evalAt; rw [hfc]; exact ⟨_, rfl⟩
    rw [hev]
    simp only
    by_cases ht : ev.innerCrit ≤ st.innerTol ∨ ev.outerCrit ≤ S.targetTol
    · rw [if_pos ht]; exact ⟨_, rfl⟩
    · rw [if_neg ht]
      obtain ⟨o, ho⟩ := hs (stepIn (afterEval P st ev) ev)
      rw [ho]
      simp only
      split_ifs with hm
      · exact ⟨_, rfl⟩
      · refine ih (S.maxIters - (st.numIters + 1)) (by omega) _ rfl

theorem outerLoop_returns {H : Type} (P : Ctx X K H n m) (S : Settings K) (he : ∀ x, P.eval x ≠ none)
    (hs : ∀ i, ∃ o, P.step i = .ok o) (st : St X K H m) : ∃ st', outerLoop P S st = .ok st' := by
  generalize hk : S.maxAlIters - st.alIters = k
  induction k using Nat.strong_induction_on generalizing st with
  | _ k ih =>
    rw [outerLoop]
    split_ifs with hc
    · obtain ⟨st1, h1⟩ := innerLoop_returns P S he hs (startOuter P st)
      rw [h1]
      simp only
      split_ifs with ht
      · exact ⟨_, rfl⟩
      · exact ih (S.maxAlIters - (st.alIters + 1)) (by omega) _ rfl
    · exact ⟨_, rfl⟩

/-- **C72**: with settings as in C25/C28 and `DELTA_INIT ≤ DELTA_MAX`, `solve` on a solver that has been set up returns
for every problem whose functions do not throw, every linear solver reporting signatures with entries in {-1,0,1},
every start and every earlier history: it neither throws nor loops for ever (the bound `N` on the passes of the loops
inside a step does not depend on the problem; the outer loops are bounded by `max_iters` and `max_al_iters`). -/
theorem C72_solve_returns [Archimedean K] (p : InertiaParams K) (hp : GoodParams p) (hle : p.deltaInit ≤ p.deltaMax)
    (ls : LSOptions K) (hls : GoodLS ls) :
    ∃ N, ∀ {X : Type} (C : StepCfg X K n m), C.inertia = p → C.ls = ls → N ≤ C.fuel →
      (∀ A, ∀ s ∈ C.backend.sig A, s = 1 ∨ s = -1 ∨ s = 0) → (∀ x, C.eval x ≠ none) →
      ∀ (S : Settings K) (st : St X K (Hidden K n m) m) (x0 : X) (k : ℕ) (lams0 : Fin k → K), st.hasSetup = true →
        ∃ st', solve (concreteCtx C) S st x0 k lams0 = .ok st' := by
  obtain ⟨N, hN⟩ := C72_step_returns (n := n) (m := m) p hp hle ls hls
  refine ⟨N, fun {X} C hCp hCl hf hsig he S st x0 k lams0 hset => ?_⟩
  obtain ⟨st', h⟩ := outerLoop_returns (concreteCtx C) S he (hN C hCp hCl hf hsig) (initSolve S st x0 k lams0)
  unfold solve
  rw [if_neg (by simp [hset]), h]
  exact ⟨_, rfl⟩

/-! ### Concrete instances -/

/-- linear solver for one variable and no constraint: division by the entry -/
def Demo.backend1 : Backend ℚ 1 0 where
  sig A := [((SignType.sign (A (.inl 0) (.inl 0)) : SignType) : ℤ)]
  solve A b := fun _ => b 0 / A (.inl 0) (.inl 0)

theorem Demo.matrix1_eq (A : Matrix (Fin 1 ⊕ Fin 0) (Fin 1 ⊕ Fin 0) ℚ) :
    A = kktMatrix (Matrix.of fun _ _ => A (.inl 0) (.inl 0)) Fin.elim0 Fin.elim0 := by
  funext i j
  rcases i with a | a
  · rcases j with b | b
    · rw [Subsingleton.elim a 0, Subsingleton.elim b 0]; rfl
    · exact b.elim0
  · exact a.elim0

theorem Demo.inertia1 (A : Matrix (Fin 1 ⊕ Fin 0) (Fin 1 ⊕ Fin 0) ℚ) :
    HasInertia A 1 0 0 ↔ 0 < A (.inl 0) (.inl 0) := by
  have key := C24_inertia_iff (Matrix.of fun _ _ : Fin 1 => A (.inl 0) (.inl 0)) Fin.elim0 Fin.elim0
    (fun i : Fin 0 => i.elim0)
  rw [← Demo.matrix1_eq A] at key
  rw [key]
  constructor
  · intro h
    have := h (fun _ => 1) (by intro h; have := congrFun h 0; simp at this)
    simpa [quad, reduced] using this
  · intro h v hv
    have hv0 : v 0 ≠ 0 := by
      intro h0; apply hv; funext i; rw [Subsingleton.elim i 0]; exact h0
    simp only [quad, reduced, Matrix.of_apply, Fin.sum_univ_succ, Fin.sum_univ_zero, add_zero]
    have := mul_pos h (mul_self_pos.2 hv0)
    linarith

/-- the hypotheses on the linear solver in C70 and C71 can be met -/
theorem Demo.backend1_exact : ExactBackend Demo.backend1 where
  entries := by
    intro A s hs
    simp only [Demo.backend1, List.mem_singleton] at hs
    subst hs
    rcases lt_trichotomy (A (.inl 0) (.inl 0)) 0 with h | h | h <;> simp [h]
  inertia := by
    intro A _
    rw [Demo.inertia1]
    rcases lt_trichotomy (A (.inl 0) (.inl 0)) 0 with h | h | h
    · simp only [Demo.backend1, sign_neg h, SignType.coe_neg, h.not_gt, iff_false]; decide
    · simp only [Demo.backend1, h, sign_zero, lt_irrefl, iff_false]; decide
    · simp only [Demo.backend1, sign_pos h, h, iff_true]; decide
  solves := by
    intro A _ hI b a
    have h := ((Demo.inertia1 A).1 hI).ne'
    have e : ∀ c : Fin (1 + 0), (finSumFinEquiv (m := 1) (n := 0)).symm c = .inl 0 := by decide
    have ha : a = 0 := by revert a; decide
    subst ha
    rw [Fin.sum_univ_one, e]
    simp only [Demo.backend1]
    field_simp

/-- minimise `x²/4` without constraints; quasi-Newton or exact Hessian -/
def Demo.quarter (approx : HessApprox) (kkt : KktSys) : StepCfg ℚ ℚ 1 0 where
  eval x := some (x * x / 4, Fin.elim0)
  grad x := fun _ => x / 2
  jac _ := Fin.elim0
  objHess _ := fun _ _ => 1 / 2
  cstrVhp _ _ := []
  sets := StackedSet.ofLeaves Fin.elim0
  neutral := 0
  coords x := fun _ => x
  integrate x d := x + d 0
  proxVal rho t x := rho / 2 * (x - t) ^ 2
  proxGrad rho t x := fun _ => rho * (x - t)
  proxHess rho _ _ := fun _ _ => rho
  approx := approx
  kkt := kkt
  beta := 1 / 2
  inertia := Demo.inertiaDefaults
  refineTol := 1 / 10000000000
  refineSteps := 5
  ls := Demo.lsOpts .quadratic (1 / 10000) (1 / 1000000)
  backend := Demo.backend1
  sqrt := id
  sing := Demo.singNaN
  fuel := 40

/-- one iteration allowed -/
def Demo.oneIter : Settings ℚ := Demo.settings (1 / 100000) (1 / 100) .newton 1 10

/-- set up -/
def Demo.stepReady (C : StepCfg ℚ ℚ 1 0) (S : Settings ℚ) : St ℚ ℚ (Hidden ℚ 1 0) 0 :=
  setup (concreteCtx C) (hidden0 C) (St.fresh (concreteCtx C) S (hidden0 C))

/-- **C21 is false with the BFGS Hessian approximation**: for the cost `x²/4`, one step from `x0 = 2` goes to `1` on a
fresh solver; after an earlier `solve` from `x0 = 1` on the same solver it goes to `0`, because the quasi-Newton matrix
and its reference point are kept from the earlier run. -/
theorem C21_reproducible_false_bfgs :
    ∃ a b c, solve (concreteCtx (Demo.quarter .bfgs .classic)) Demo.oneIter
        (Demo.stepReady (Demo.quarter .bfgs .classic) Demo.oneIter) 2 0 Fin.elim0 = .ok a ∧
      solve (concreteCtx (Demo.quarter .bfgs .classic)) Demo.oneIter
        (Demo.stepReady (Demo.quarter .bfgs .classic) Demo.oneIter) 1 0 Fin.elim0 = .ok b ∧
      solve (concreteCtx (Demo.quarter .bfgs .classic)) Demo.oneIter b 2 0 Fin.elim0 = .ok c ∧
      a.xOpt = 1 ∧ c.xOpt = 0 := by
  obtain ⟨a, ha, hpa⟩ := checkSolve_sound (concreteCtx (Demo.quarter .bfgs .classic)) Demo.oneIter 20
    (Demo.stepReady (Demo.quarter .bfgs .classic) Demo.oneIter) 2 0 Fin.elim0 (fun s => decide (s.xOpt = 1))
    (by decide +kernel)
  obtain ⟨b, hb, hpb⟩ := checkSolve_sound (concreteCtx (Demo.quarter .bfgs .classic)) Demo.oneIter 20
    (Demo.stepReady (Demo.quarter .bfgs .classic) Demo.oneIter) 1 0 Fin.elim0
    (fun s => checkSolve (concreteCtx (Demo.quarter .bfgs .classic)) Demo.oneIter 20 s 2 0 Fin.elim0
      fun s => decide (s.xOpt = 0))
    (by decide +kernel)
  obtain ⟨c, hc, hpc⟩ := checkSolve_sound _ _ _ _ _ _ _ _ hpb
  exact ⟨a, b, c, ha, hb, hc, of_decide_eq_true hpa, of_decide_eq_true hpc⟩

/-- non-vacuity of C69: a run with the quasi-Newton approximation that takes several steps -/
example : ∃ a, solve (concreteCtx (Demo.quarter .bfgs .classic)) (Demo.settings (1 / 100000) (1 / 100) .newton 10 10)
      (Demo.stepReady (Demo.quarter .bfgs .classic) Demo.oneIter) 2 0 Fin.elim0 = .ok a ∧
    a.accepted.map Prod.fst = [1, 0] ∧ a.converged = .success := by
  obtain ⟨a, ha, hpa⟩ := checkSolve_sound (concreteCtx (Demo.quarter .bfgs .classic))
    (Demo.settings (1 / 100000) (1 / 100) .newton 10 10) 20
    (Demo.stepReady (Demo.quarter .bfgs .classic) Demo.oneIter) 2 0 Fin.elim0
    (fun s => decide (s.accepted.map Prod.fst = [1, 0] ∧ s.converged = .success)) (by decide +kernel)
  exact ⟨a, ha, of_decide_eq_true hpa⟩

example : GoodLS (Demo.quarter .exact .primalDual).ls := by
  constructor <;> norm_num [Demo.quarter, Demo.lsOpts]

example : InRange (Demo.quarter .exact .primalDual).sing := by
  intro c0 c1 lo hi a _ h; simp [Demo.quarter, Demo.singNaN] at h

/-- the state of the solver at `x = 2` in a first step -/
def Demo.stepInput : StepIn ℚ ℚ (Hidden ℚ 1 0) 1 0 where
  x := 2
  lam := Fin.elim0
  lamPrev := Fin.elim0
  target := 0
  mu := 1 / 100
  setMu := 1 / 100
  rho := 0
  hidden := { hess := fun _ _ => 1 / 2, vhps := [], bfgs := Bfgs.default, deltaLast := 0, fac := none }
  ev := { value := 1, c := Fin.elim0, grad := fun _ => 1, jac := Fin.elim0, shift := Fin.elim0, shiftPdal := Fin.elim0,
          lamsPlus := Fin.elim0, lamsPdal := Fin.elim0, proxGrad := fun _ => 0, rhsTop := fun _ => 1,
          rhsBot := Fin.elim0, merit := 1, prim := 0, dual := 1 }

/-- non-vacuity of C70 and C71: the hypotheses on the matrix and the residual hold, and the step is the Newton step -/
example : let M := (computeMultipliers (Demo.quarter .exact .primalDual).sets (1 / 100) (1 / 100) (1 / 2)
      Demo.stepInput.ev.c Demo.stepInput.lam Demo.stepInput.lamPrev : Mults ℚ 0);
    (stepMatrix (Demo.quarter .exact .primalDual) Demo.stepInput M).IsSymm ∧
    HasInertia (stepMatrix (Demo.quarter .exact .primalDual) Demo.stepInput M) 1 0 0 ∧
    ¬ (rhsPrimal Demo.stepInput.rho Demo.stepInput.ev.grad Demo.stepInput.ev.proxGrad Demo.stepInput.ev.jac
      Demo.stepInput.lam = 0 ∧ rhsDual .primalDual Demo.stepInput.mu M Demo.stepInput.lam = 0) ∧
    ∃ o, stepFull (Demo.quarter .exact .primalDual) Demo.stepInput = .ok o ∧ o.x = 0 ∧ o.merit < 1 := by
  refine ⟨?_, ?_, ?_, ?_⟩
  · ext i j; rcases i with i | i <;> rcases j with j | j
    · rw [Subsingleton.elim i j]; rfl
    · exact j.elim0
    · exact i.elim0
    · exact i.elim0
  · rw [Demo.inertia1]; decide +kernel
  · rintro ⟨h, -⟩
    have := congrFun h 0
    revert this
    decide +kernel
  · have h : (match stepFull (Demo.quarter .exact .primalDual) Demo.stepInput with
      | .ok o => decide (o.x = 0 ∧ o.merit < 1) | .error _ => false) = true := by decide +kernel
    split at h
    · rename_i o ho; exact ⟨o, ho, of_decide_eq_true h⟩
    · cases h

end ProxNLP
