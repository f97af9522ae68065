import Verif.Lemmas.Renaming
import Verif.Lemmas.SolverEval
import Verif.Props.Convex

/-!
C111: the outcome of a solve does not depend on how the problem is written down.
-/

set_option linter.unusedSectionVars false
namespace ProxNLP
open Spec

variable {X X' K : Type} {n m : ℕ} [Field K] [LinearOrder K] [IsStrictOrderedRing K]

/-- The linear solver of the configuration is one of the library's, in exact arithmetic, and no regularisation is added at first. -/
structure Spec.LibraryLinear (C : StepCfg X K n m) : Prop where
  params : GoodParams C.inertia
  deltaInit : C.inertia.deltaInit = 0
  deltaMax : 0 ≤ C.inertia.deltaMax
  backend : LibraryBackend C.backend

/-- The Hessian block of the linear system at the point `x` with multiplier estimates `l`, proximal parameter `rho` and centre `t`, when the
option is EXACT or GAUSS_NEWTON: Hessian of the cost, of the constraints (EXACT: all; else those that ask for it), of the proximal term. -/
def Spec.usedHessian (C : StepCfg X K n m) (x : X) (l : Fin m → K) (rho : K) (t : X) : Matrix (Fin n) (Fin n) K :=
  kktHessian (C.approx == .exact) rho (C.objHess x) (C.proxHess rho t x) (C.cstrVhp x l)

/-- The option is EXACT or GAUSS_NEWTON, and the Hessian block is symmetric positive definite everywhere. -/
structure Spec.ConvexHessian (C : StepCfg X K n m) : Prop where
  approx : C.approx = .exact ∨ C.approx = .gaussNewton
  symm : ∀ x l rho t, 0 ≤ rho → (usedHessian C x l rho t).IsSymm
  pos : ∀ x l rho t, 0 ≤ rho → PosDef (usedHessian C x l rho t)

/-- Penalty parameters are positive, the proximal parameter is not negative, and some iterations are allowed. -/
structure Spec.PlainSettings (S : Settings K) : Prop where
  mu : 0 < S.muInit
  lower : 0 < S.muLower
  rho : 0 ≤ S.rhoInit
  factor : 0 ≤ S.rhoUpdateFactor
  iters : 0 < S.maxIters
  alIters : 0 < S.maxAlIters

variable {ρ : Renaming X X' K n m} {C : StepCfg X K n m} {C' : StepCfg X' K n m}

theorem usedHessian_step (hc : C.approx = .exact ∨ C.approx = .gaussNewton) (h0 : Hidden K n m) (x : X) (g : Fin n → K) (l : Fin m → K) (rho : K) (t : X) :
    kktHessian (C.approx == .exact) rho (hessUpdate C h0 x g l).hess (C.proxHess rho t x) (hessUpdate C h0 x g l).vhps =
      usedHessian C x l rho t := by
  unfold usedHessian hessUpdate
  rcases hc with ha | ha <;> rw [ha]

theorem kkt_blocks (H : Matrix (Fin n) (Fin n) K) (J : Fin m → Fin n → K) (d : Fin m → K) :
    ρ.kkt (kktMatrix H J d) = kktMatrix (ρ.mat H) (fun i j => J (ρ.row i) (ρ.var j)) (fun i => d (ρ.row i)) :=
  (ren_kktMatrix H J d).symm

theorem posDef_mat {H : Matrix (Fin n) (Fin n) K} (h : PosDef H) : PosDef (ρ.mat H) := by
  intro v hv
  have := h (fun j => v (ρ.var.symm j)) (fun e => hv (funext fun j => by simpa using congrFun e (ρ.var j)))
  simp only [quad, Renaming.mat, Matrix.of_apply] at this ⊢
  rw [← Equiv.sum_comp ρ.var] at this
  refine lt_of_lt_of_eq this (Finset.sum_congr rfl fun i _ => ?_)
  rw [← Equiv.sum_comp ρ.var]
  simp

theorem steps_convex (h : SameProblem ρ C C') (ho : SameOptions C C') (hs : ConstantSafe ρ C) (hl : LibraryLinear C) (hl' : LibraryLinear C')
    (hc : ConvexHessian C) : StepsAgree ρ C C' fun mu rho => 0 < mu ∧ 0 ≤ rho := by
  intro i h' hG hi hh
  obtain ⟨h0, hi⟩ := hi
  refine ren_step h ho hs i hh ?_
  generalize computeMultipliers C.sets i.mu i.setMu C.beta i.ev.c i.lam i.lamPrev = M
  have hH : kktHessian (C.approx == .exact) i.rho i.hidden.hess (C.proxHess i.rho i.target i.x) i.hidden.vhps =
      usedHessian C i.x i.ev.lamsPdal i.rho i.target := by
    rw [hi]; exact usedHessian_step hc.approx _ _ _ _ _ _
  have hsym := hc.symm i.x i.ev.lamsPdal i.rho i.target hG.2
  have hpos := hc.pos i.x i.ev.lamsPdal i.rho i.target hG.2
  rw [← hH] at hsym hpos
  have hd := kktDual_neg C.kkt i.mu hG.1 (keptRows C.kkt C.sets i.setMu M)
  have hsym' : (ρ.mat (kktHessian (C.approx == .exact) i.rho i.hidden.hess (C.proxHess i.rho i.target i.x) i.hidden.vhps)).IsSymm := by
    ext a b
    exact congrFun (congrFun hsym (ρ.var a)) (ρ.var b)
  refine ren_direction_exact h ho hl.params hl'.params hl.deltaInit hl'.deltaInit hl.deltaMax hl'.deltaMax i M hh
    (C79_exact hl.backend _ hsym hpos _ _ hd) ?_ ?_
  · unfold stepMatrix
    simp only [kkt_blocks]
    exact C79_exact hl'.backend _ hsym' (posDef_mat hpos) _ _ fun i => hd _
  · unfold stepMatrix
    simp only [kkt_blocks]
    exact HasInertia.det_ne_zero (C24_symmetric _ hsym' _ _) (hasInertia_kkt _ (posDef_mat hpos) _ _ fun i => hd _)

/-- **C111**: a problem with positive definite Hessian blocks and the same problem written with other names (points represented otherwise,
variables and constraints in another order, a constant added to the cost) have the same outcome of `solve`, from the same start, whichever
linear solver of the library either uses. -/
theorem C111_renaming (h : SameProblem ρ C C') (ho : SameOptions C C') (hs : ConstantSafe ρ C) (hl : LibraryLinear C) (hl' : LibraryLinear C')
    (hc : ConvexHessian C) (S : Settings K) (hS : PlainSettings S) (st : St X K (Hidden K n m) m) (st' : St X' K (Hidden K n m) m)
    (hst : SameState ρ st st') (x0 : X) (lam0 : Fin m → K) :
    SameOutcome ρ (solve (concreteCtx C) S st x0 m lam0) (solve (concreteCtx C') S st' (ρ.point x0) m fun i => lam0 (ρ.row i)) :=
  ren_solve h ho (steps_convex h ho hs hl hl' hc) S
    ⟨⟨hS.mu, hS.rho⟩, fun _ _ g => ⟨hS.mu, g.2⟩, fun _ _ g => ⟨lt_max_of_lt_right hS.lower, g.2⟩,
      fun _ _ g => ⟨g.1, mul_nonneg g.2 hS.factor⟩⟩ hS.iters hS.alIters st st' hst x0 m lam0 _ fun _ _ => rfl

/-- **C111** without any condition on the problem (BFGS included), for a linear solver whose own results do not depend on the names. -/
theorem C111_symmetric_backend (h : SameProblem ρ C C') (ho : SameOptions C C') (hs : ConstantSafe ρ C)
    (hB : SameBackend ρ C.backend C'.backend) (hi : C'.inertia = C.inertia) (ht : C'.refineTol = C.refineTol)
    (hst : C'.refineSteps = C.refineSteps) (S : Settings K) (h1 : 0 < S.maxIters) (h2 : 0 < S.maxAlIters) (st : St X K (Hidden K n m) m)
    (st' : St X' K (Hidden K n m) m) (hst' : SameState ρ st st') (x0 : X) (lam0 : Fin m → K) :
    SameOutcome ρ (solve (concreteCtx C) S st x0 m lam0) (solve (concreteCtx C') S st' (ρ.point x0) m fun i => lam0 (ρ.row i)) :=
  ren_solve h ho (G := fun _ _ => True)
    (fun i _ _ _ hh => ren_step h ho hs i hh (ren_direction h ho hB hi ht hst i _ hh)) S
    ⟨trivial, fun _ _ _ => trivial, fun _ _ _ => trivial, fun _ _ _ => trivial⟩ h1 h2 st st' hst' x0 m lam0 _ fun _ _ => rfl

/-- Solvers that have just been built on the two problems, and such solvers after `setup()`, are in the same state. -/
theorem C111_fresh (h : SameProblem ρ C C') (ho : SameOptions C C') (S : Settings K) :
    SameState ρ (St.fresh (concreteCtx C) S (hidden0 C)) (St.fresh (concreteCtx C') S (hidden0 C')) ∧
    SameState ρ (setup (concreteCtx C) (hidden0 C) (St.fresh (concreteCtx C) S (hidden0 C)))
      (setup (concreteCtx C') (hidden0 C') (St.fresh (concreteCtx C') S (hidden0 C'))) := by
  have hh : SameHidden ρ (hidden0 C) (hidden0 C') := by
    unfold hidden0
    rw [ho.approx]
    cases C.approx <;> constructor <;> simp [Bfgs.new, Bfgs.default, Renaming.mat, ← Matrix.ext_iff, Matrix.one_apply, secondOrder]
  refine ⟨⟨(St.fresh (concreteCtx C') S (hidden0 C')).value, (St.fresh (concreteCtx C') S (hidden0 C')).merit, hidden0 C', hh, ?_⟩,
    ⟨(setup (concreteCtx C') (hidden0 C') (St.fresh (concreteCtx C') S (hidden0 C'))).value,
      (setup (concreteCtx C') (hidden0 C') (St.fresh (concreteCtx C') S (hidden0 C'))).merit, hidden0 C', hh, ?_⟩⟩
  · simp only [St.fresh, Renaming.state, concreteCtx, h.neutral]; rfl
  · simp only [setup, St.fresh, Renaming.state, concreteCtx, h.neutral]; rfl

/-- a solver built on the problem and set up -/
def Spec.readySolver (C : StepCfg X K n m) (S : Settings K) : St X K (Hidden K n m) m :=
  setup (concreteCtx C) (hidden0 C) (St.fresh (concreteCtx C) S (hidden0 C))

theorem sameProblem_constant (c : K) (C : StepCfg X K n m) : SameProblem (Renaming.constant c) C (addConstant c C) where
  eval _ := rfl
  grad _ _ := rfl
  jac _ _ _ := rfl
  objHess _ := rfl
  cstrVhp _ _ _ := rfl
  projection _ _ _ := rfl
  normal _ _ _ := rfl
  active _ _ _ := rfl
  evaluate _ _ := rfl
  neutral := rfl
  coords _ _ := (add_zero _).symm
  integrate _ _ := rfl
  proxVal _ _ _ := rfl
  proxGrad _ _ _ _ := rfl
  proxHess _ _ _ := rfl

theorem sameProblem_rows (σ : Equiv.Perm (Fin m)) (leaf : Fin m → LeafSet K × ℕ) (C : StepCfg X K n m)
    (hC : C.sets = StackedSet.ofLeaves leaf) : SameProblem (Renaming.rows σ) C (reorderRows σ leaf C) where
  eval x := by
    show (C.eval x).map _ = _
    congr 1
    funext fc
    exact Prod.ext (add_zero _).symm rfl
  grad _ _ := rfl
  jac _ _ _ := rfl
  objHess _ := rfl
  cstrVhp e x l := by
    show secondOrder e (C.cstrVhp x fun i => l (σ (σ.symm i))) = secondOrder e (C.cstrVhp x l)
    simp
  projection mu z i := by rw [hC]; rfl
  normal mu z i := by rw [hC]; rfl
  active mu z i := by rw [hC]; rfl
  evaluate mu z := by
    rw [hC]
    exact Equiv.sum_comp σ fun i => match (leaf i).1 with
      | .l1 => |z i|
      | _ => 0
  neutral := rfl
  coords _ _ := (add_zero _).symm
  integrate _ _ := rfl
  proxVal _ _ _ := rfl
  proxGrad _ _ _ _ := rfl
  proxHess _ _ _ := rfl

theorem sameProblem_vars (τ : Equiv.Perm (Fin n)) (C : StepCfg (Fin n → K) K n m) :
    SameProblem (Renaming.vars τ) C (reorderVars τ C) where
  eval x := by
    have : (fun fc : K × (Fin m → K) => (fc.1 + (Renaming.vars (m := m) (K := K) τ).shift,
        fun i => fc.2 ((Renaming.vars (m := m) (K := K) τ).row i))) = id := by
      funext fc
      exact Prod.ext (add_zero _) rfl
    rw [this, Option.map_id]
    simp [reorderVars, Renaming.vars]
  grad _ _ := by simp [reorderVars, Renaming.vars]
  jac _ _ _ := by simp [reorderVars, Renaming.vars]
  objHess _ := by simp [reorderVars, Renaming.vars, Renaming.mat]
  cstrVhp e x l := by
    rw [← secondOrder_mat]
    simp [reorderVars, Renaming.vars, Renaming.mat]
  projection _ _ _ := rfl
  normal _ _ _ := rfl
  active _ _ _ := rfl
  evaluate _ _ := rfl
  neutral := rfl
  coords _ _ := by simp [reorderVars, Renaming.vars]
  integrate _ _ := by funext j; simp [reorderVars, Renaming.vars]
  proxVal _ _ _ := by simp [reorderVars, Renaming.vars]
  proxGrad _ _ _ _ := by simp [reorderVars, Renaming.vars]
  proxHess _ _ _ := by simp [reorderVars, Renaming.vars, Renaming.mat]

/-- **C111, a constant in the cost**: for every problem whose functions do not throw, every option and every linear solver, `f + c` instead of
`f` leaves the return value, the point, the multipliers, the counts and the infeasibilities as they are, and adds `c` to the value and the merit. -/
theorem C111_constant (c : K) (C : StepCfg X K n m) (hev : ∀ x, C.eval x ≠ none)
    (hsing : ∀ c0 c1 : LSSample K, ∀ lo hi,
      C.sing { c0 with phi := c0.phi + c } { c1 with phi := c1.phi + c } lo hi = C.sing c0 c1 lo hi)
    (S : Settings K) (h1 : 0 < S.maxIters) (h2 : 0 < S.maxAlIters) (x0 : X) (lam0 : Fin m → K) :
    (∀ e, solve (concreteCtx C) S (readySolver C S) x0 m lam0 = .error e →
      solve (concreteCtx (addConstant c C)) S (readySolver (addConstant c C) S) x0 m lam0 = .error e) ∧
    ∀ r, solve (concreteCtx C) S (readySolver C S) x0 m lam0 = .ok r →
      ∃ r', solve (concreteCtx (addConstant c C)) S (readySolver (addConstant c C) S) x0 m lam0 = .ok r' ∧
        r'.converged = r.converged ∧ r'.xOpt = r.xOpt ∧ r'.lamsOpt = r.lamsOpt ∧ r'.numIters = r.numIters ∧ r'.alIters = r.alIters ∧
        r'.prim = r.prim ∧ r'.dual = r.dual ∧ r'.active = r.active ∧ r'.value = r.value + c ∧ r'.merit = r.merit + c := by
  have h := C111_symmetric_backend (sameProblem_constant c C) ⟨rfl, rfl, rfl, rfl, rfl, rfl, rfl⟩ (.inr ⟨hev, hsing⟩)
    (C' := addConstant c C) ⟨fun A => by
      have : (Renaming.constant (X := X) (n := n) (m := m) c).kkt A = A := by
        ext (a | a) (b | b) <;> rfl
      rw [this]; rfl, fun A b a => by
      have : (Renaming.constant (X := X) (n := n) (m := m) c).kkt A = A := by
        ext (a | a) (b | b) <;> rfl
      have h2 : ∀ a : Fin n ⊕ Fin m, Sum.map (Renaming.constant (X := X) (n := n) (m := m) c).var
          (Renaming.constant (X := X) (n := n) (m := m) c).row a = a := by rintro (a | a) <;> rfl
      simp only [this, h2, Equiv.apply_symm_apply]; rfl⟩ rfl rfl rfl S h1 h2 _ _
    (C111_fresh (sameProblem_constant c C) ⟨rfl, rfl, rfl, rfl, rfl, rfl, rfl⟩ S).2 x0 lam0
  change SameOutcome _ (solve (concreteCtx C) S (readySolver C S) x0 m lam0)
    (solve (concreteCtx (addConstant c C)) S (readySolver (addConstant c C) S) x0 m lam0) at h
  constructor
  · intro e he
    rw [he] at h
    revert h
    cases solve (concreteCtx (addConstant c C)) S (readySolver (addConstant c C) S) x0 m lam0 with
    | error e' => intro h; exact congrArg Except.error h
    | ok r => intro h; exact h.elim
  · intro r hr
    rw [hr] at h
    revert h
    cases solve (concreteCtx (addConstant c C)) S (readySolver (addConstant c C) S) x0 m lam0 with
    | error e' => intro h; exact h.elim
    | ok r' =>
      rintro ⟨hd, -, rfl⟩
      exact ⟨_, rfl, rfl, rfl, rfl, rfl, rfl, rfl, rfl, rfl, rfl, rfl⟩

/-- **C111, the order of the constraints**: for a problem with positive definite Hessian blocks, listing the constraint rows in another order
permutes the multipliers, the active set and the errors of the rows, and changes nothing else, whichever linear solvers of the library are used. -/
theorem C111_constraint_order (σ : Equiv.Perm (Fin m)) (leaf : Fin m → LeafSet K × ℕ) (C : StepCfg X K n m)
    (hC : C.sets = StackedSet.ofLeaves leaf) (hl : LibraryLinear C) (hc : ConvexHessian C) (B' : Backend K n m) (hB' : LibraryBackend B')
    (S : Settings K) (hS : PlainSettings S) (x0 : X) (lam0 : Fin m → K) (r : St X K (Hidden K n m) m)
    (hr : solve (concreteCtx C) S (readySolver C S) x0 m lam0 = .ok r) :
    ∃ r', solve (concreteCtx { reorderRows σ leaf C with backend := B' }) S (readySolver { reorderRows σ leaf C with backend := B' } S) x0 m
        (fun i => lam0 (σ i)) = .ok r' ∧
      r'.converged = r.converged ∧ r'.xOpt = r.xOpt ∧ (∀ i, r'.lamsOpt i = r.lamsOpt (σ i)) ∧ r'.numIters = r.numIters ∧
      r'.alIters = r.alIters ∧ r'.prim = r.prim ∧ r'.dual = r.dual ∧ (∀ i, r'.active i = r.active (σ i)) ∧
      (∀ i, r'.rowErr i = r.rowErr (σ i)) ∧ r'.value = r.value ∧ r'.merit = r.merit := by
  have hp : SameProblem (Renaming.rows σ) C { reorderRows σ leaf C with backend := B' } := by
    have := sameProblem_rows σ leaf C hC
    exact ⟨this.1, this.2, this.3, this.4, this.5, this.6, this.7, this.8, this.9, this.10, this.11, this.12, this.13, this.14, this.15⟩
  have ho : SameOptions C { reorderRows σ leaf C with backend := B' } := ⟨rfl, rfl, rfl, rfl, rfl, rfl, rfl⟩
  have h := C111_renaming hp ho (.inl rfl) hl ⟨hl.params, hl.deltaInit, hl.deltaMax, hB'⟩ hc S hS _ _ (C111_fresh hp ho S).2 x0 lam0
  change SameOutcome _ (solve (concreteCtx C) S (readySolver C S) x0 m lam0)
    (solve (concreteCtx { reorderRows σ leaf C with backend := B' }) S (readySolver { reorderRows σ leaf C with backend := B' } S) x0 m
      fun i => lam0 (σ i)) at h
  rw [hr] at h
  revert h
  cases solve (concreteCtx { reorderRows σ leaf C with backend := B' }) S (readySolver { reorderRows σ leaf C with backend := B' } S) x0 m
      fun i => lam0 (σ i) with
  | error e' => intro h; exact h.elim
  | ok r' =>
    rintro ⟨hd, -, rfl⟩
    exact ⟨_, rfl, rfl, rfl, fun _ => rfl, rfl, rfl, rfl, rfl, fun _ => rfl, fun _ => rfl, add_zero _, add_zero _⟩

/-- **C111, the order of the variables** on `ℝⁿ`, likewise. -/
theorem C111_variable_order (τ : Equiv.Perm (Fin n)) (C : StepCfg (Fin n → K) K n m)
    (hl : LibraryLinear C) (hc : ConvexHessian C) (B' : Backend K n m) (hB' : LibraryBackend B')
    (S : Settings K) (hS : PlainSettings S) (x0 : Fin n → K) (lam0 : Fin m → K) (r : St (Fin n → K) K (Hidden K n m) m)
    (hr : solve (concreteCtx C) S (readySolver C S) x0 m lam0 = .ok r) :
    ∃ r', solve (concreteCtx { reorderVars τ C with backend := B' }) S (readySolver { reorderVars τ C with backend := B' } S)
        (fun j => x0 (τ j)) m lam0 = .ok r' ∧
      r'.converged = r.converged ∧ (∀ j, r'.xOpt j = r.xOpt (τ j)) ∧ r'.lamsOpt = r.lamsOpt ∧ r'.numIters = r.numIters ∧
      r'.alIters = r.alIters ∧ r'.prim = r.prim ∧ r'.dual = r.dual ∧ r'.active = r.active ∧ r'.value = r.value ∧ r'.merit = r.merit := by
  have hp : SameProblem (Renaming.vars τ) C { reorderVars τ C with backend := B' } := by
    have := sameProblem_vars (m := m) τ C
    exact ⟨this.1, this.2, this.3, this.4, this.5, this.6, this.7, this.8, this.9, this.10, this.11, this.12, this.13, this.14, this.15⟩
  have ho : SameOptions C { reorderVars τ C with backend := B' } := ⟨rfl, rfl, rfl, rfl, rfl, rfl, rfl⟩
  have h := C111_renaming hp ho (.inl rfl) hl ⟨hl.params, hl.deltaInit, hl.deltaMax, hB'⟩ hc S hS _ _ (C111_fresh hp ho S).2 x0 lam0
  change SameOutcome _ (solve (concreteCtx C) S (readySolver C S) x0 m lam0)
    (solve (concreteCtx { reorderVars τ C with backend := B' }) S (readySolver { reorderVars τ C with backend := B' } S)
      (fun j => x0 (τ j)) m lam0) at h
  rw [hr] at h
  revert h
  cases solve (concreteCtx { reorderVars τ C with backend := B' }) S (readySolver { reorderVars τ C with backend := B' } S)
      (fun j => x0 (τ j)) m lam0 with
  | error e' => intro h; exact h.elim
  | ok r' =>
    rintro ⟨hd, -, rfl⟩
    exact ⟨_, rfl, rfl, fun _ => rfl, rfl, rfl, rfl, rfl, rfl, rfl, add_zero _, add_zero _⟩

/-- **C111, the choice of the linear solver**: for a problem with positive definite Hessian blocks, in exact arithmetic, every linear solver
of the library, every refinement threshold and every number of refinement steps give the same return value and the same results. -/
theorem C111_linear_solver (C : StepCfg X K n m) (hl : LibraryLinear C) (hc : ConvexHessian C) (B' : Backend K n m) (hB' : LibraryBackend B')
    (tol : K) (steps : ℕ) (S : Settings K) (hS : PlainSettings S) (x0 : X) (lam0 : Fin m → K) (r : St X K (Hidden K n m) m)
    (hr : solve (concreteCtx C) S (readySolver C S) x0 m lam0 = .ok r) :
    ∃ r', solve (concreteCtx { C with backend := B', refineTol := tol, refineSteps := steps }) S
        (readySolver { C with backend := B', refineTol := tol, refineSteps := steps } S) x0 m lam0 = .ok r' ∧
      r'.converged = r.converged ∧ r'.xOpt = r.xOpt ∧ r'.lamsOpt = r.lamsOpt ∧ r'.numIters = r.numIters ∧ r'.alIters = r.alIters ∧
      r'.prim = r.prim ∧ r'.dual = r.dual ∧ r'.active = r.active ∧ r'.value = r.value ∧ r'.merit = r.merit ∧ r'.accepted = r.accepted := by
  have hp : SameProblem (Renaming.constant 0) C { C with backend := B', refineTol := tol, refineSteps := steps } := by
    have := sameProblem_constant 0 C
    refine ⟨fun x => ?_, this.2, this.3, this.4, this.5, this.6, this.7, this.8, this.9, this.10, this.11, this.12, this.13, this.14, this.15⟩
    have : (fun fc : K × (Fin m → K) => (fc.1 + (Renaming.constant (X := X) (n := n) (m := m) (0 : K)).shift,
        fun i => fc.2 ((Renaming.constant (X := X) (n := n) (m := m) (0 : K)).row i))) = id := by
      funext fc
      exact Prod.ext (add_zero _) rfl
    rw [this, Option.map_id]
    rfl
  have ho : SameOptions C { C with backend := B', refineTol := tol, refineSteps := steps } := ⟨rfl, rfl, rfl, rfl, rfl, rfl, rfl⟩
  have h := C111_renaming hp ho (.inl rfl) hl ⟨hl.params, hl.deltaInit, hl.deltaMax, hB'⟩ hc S hS _ _ (C111_fresh hp ho S).2 x0 lam0
  change SameOutcome _ (solve (concreteCtx C) S (readySolver C S) x0 m lam0)
    (solve (concreteCtx { C with backend := B', refineTol := tol, refineSteps := steps }) S
      (readySolver { C with backend := B', refineTol := tol, refineSteps := steps } S) x0 m lam0) at h
  rw [hr] at h
  revert h
  cases solve (concreteCtx { C with backend := B', refineTol := tol, refineSteps := steps }) S
      (readySolver { C with backend := B', refineTol := tol, refineSteps := steps } S) x0 m lam0 with
  | error e' => intro h; exact h.elim
  | ok r' =>
    rintro ⟨hd, -, rfl⟩
    refine ⟨_, rfl, rfl, rfl, rfl, rfl, rfl, rfl, rfl, rfl, add_zero _, add_zero _, ?_⟩
    show r.accepted.map _ = r.accepted
    exact List.map_id _

theorem sameProblem_grouping (hess : X → Fin m → Matrix (Fin n) (Fin n) K) (left : Fin m → Bool) (groups groups' : List (List (Fin m)))
    (hg : IsGrouping left groups) (hg' : IsGrouping left groups') (C : StepCfg X K n m) (hC : C.cstrVhp = groupedRows hess left groups)
    (B' : Backend K n m) :
    SameProblem (Renaming.constant 0) C { C with cstrVhp := groupedRows hess left groups', backend := B' } := by
  have := sameProblem_constant 0 C
  refine ⟨fun x => ?_, this.2, this.3, this.4, fun e x l => ?_, this.6, this.7, this.8, this.9, this.10, this.11, this.12, this.13,
    this.14, this.15⟩
  · have : (fun fc : K × (Fin m → K) => (fc.1 + (Renaming.constant (X := X) (n := n) (m := m) (0 : K)).shift,
        fun i => fc.2 ((Renaming.constant (X := X) (n := n) (m := m) (0 : K)).row i))) = id := by
      funext fc
      exact Prod.ext (add_zero _) rfl
    rw [this, Option.map_id]
    rfl
  · rw [hC]
    show secondOrder e (groupedRows hess left groups' x l) = secondOrder e (groupedRows hess left groups x l)
    rw [secondOrder_grouped e hess left groups hg, secondOrder_grouped e hess left groups' hg']

/-- **C111, the grouping of the constraints**: for every problem (convex or not), every option and every linear solver, distributing the same
constraint rows over constraint objects in another way (several constraints merged into one, one split into several) changes nothing in the
outcome: the same exception, or the same return value and results. -/
theorem C111_grouping (hess : X → Fin m → Matrix (Fin n) (Fin n) K) (left : Fin m → Bool) (groups groups' : List (List (Fin m)))
    (hg : IsGrouping left groups) (hg' : IsGrouping left groups') (C : StepCfg X K n m) (hC : C.cstrVhp = groupedRows hess left groups)
    (S : Settings K) (h1 : 0 < S.maxIters) (h2 : 0 < S.maxAlIters) (x0 : X) (lam0 : Fin m → K) :
    let C' := { C with cstrVhp := groupedRows hess left groups' }
    (∀ e, solve (concreteCtx C) S (readySolver C S) x0 m lam0 = .error e →
      solve (concreteCtx C') S (readySolver C' S) x0 m lam0 = .error e) ∧
    ∀ r, solve (concreteCtx C) S (readySolver C S) x0 m lam0 = .ok r →
      ∃ r', solve (concreteCtx C') S (readySolver C' S) x0 m lam0 = .ok r' ∧
        r'.converged = r.converged ∧ r'.xOpt = r.xOpt ∧ r'.lamsOpt = r.lamsOpt ∧ r'.numIters = r.numIters ∧ r'.alIters = r.alIters ∧
        r'.prim = r.prim ∧ r'.dual = r.dual ∧ r'.active = r.active ∧ r'.rowErr = r.rowErr ∧ r'.value = r.value ∧ r'.merit = r.merit ∧
        r'.accepted = r.accepted := by
  intro C'
  have hp : SameProblem (Renaming.constant 0) C C' := sameProblem_grouping hess left groups groups' hg hg' C hC C.backend
  have ho : SameOptions C C' := ⟨rfl, rfl, rfl, rfl, rfl, rfl, rfl⟩
  have hB : SameBackend (Renaming.constant (X := X) (n := n) (m := m) (0 : K)) C.backend C'.backend := by
    have hid : ∀ A, (Renaming.constant (X := X) (n := n) (m := m) (0 : K)).kkt A = A := by
      intro A
      ext a b
      rcases a with a | a <;> rcases b with b | b <;> rfl
    refine ⟨fun A => by rw [hid], fun A b a => ?_⟩
    rw [hid]
    have hm : ∀ c : Fin n ⊕ Fin m, Sum.map (Renaming.constant (X := X) (n := n) (m := m) (0 : K)).var
        (Renaming.constant (X := X) (n := n) (m := m) (0 : K)).row c = c := by
      intro c
      rcases c with c | c <;> rfl
    simp only [hm, Equiv.apply_symm_apply]
    rfl
  have h := C111_symmetric_backend hp ho (.inl rfl) hB rfl rfl rfl S h1 h2 _ _ (C111_fresh hp ho S).2 x0 lam0
  change SameOutcome _ (solve (concreteCtx C) S (readySolver C S) x0 m lam0) (solve (concreteCtx C') S (readySolver C' S) x0 m lam0) at h
  revert h
  cases solve (concreteCtx C) S (readySolver C S) x0 m lam0 <;> cases solve (concreteCtx C') S (readySolver C' S) x0 m lam0
  · intro h
    exact ⟨fun e he => (by injection he with he; rw [← he]; exact congrArg _ h), fun r hr => (by cases hr)⟩
  · intro h; exact h.elim
  · intro h; exact h.elim
  · rintro ⟨hd, -, rfl⟩
    refine ⟨fun e he => (by cases he), fun r hr => ?_⟩
    injection hr with hr
    subst hr
    refine ⟨_, rfl, rfl, rfl, rfl, rfl, rfl, rfl, rfl, rfl, rfl, add_zero _, add_zero _, ?_⟩
    exact List.map_id _

/-- **C111, the grouping of the constraints and the linear solver**: as `C111_grouping`, with another linear solver of the library on the
regrouped problem (BLOCKSPARSE sees the constraint objects as its blocks), for positive definite Hessian blocks. -/
theorem C111_grouping_solver (hess : X → Fin m → Matrix (Fin n) (Fin n) K) (left : Fin m → Bool) (groups groups' : List (List (Fin m)))
    (hg : IsGrouping left groups) (hg' : IsGrouping left groups') (C : StepCfg X K n m) (hC : C.cstrVhp = groupedRows hess left groups)
    (hl : LibraryLinear C) (hc : ConvexHessian C) (B' : Backend K n m) (hB' : LibraryBackend B')
    (S : Settings K) (hS : PlainSettings S) (x0 : X) (lam0 : Fin m → K) (r : St X K (Hidden K n m) m)
    (hr : solve (concreteCtx C) S (readySolver C S) x0 m lam0 = .ok r) :
    let C' := { C with cstrVhp := groupedRows hess left groups', backend := B' }
    ∃ r', solve (concreteCtx C') S (readySolver C' S) x0 m lam0 = .ok r' ∧
      r'.converged = r.converged ∧ r'.xOpt = r.xOpt ∧ r'.lamsOpt = r.lamsOpt ∧ r'.numIters = r.numIters ∧ r'.alIters = r.alIters ∧
      r'.prim = r.prim ∧ r'.dual = r.dual ∧ r'.active = r.active ∧ r'.rowErr = r.rowErr ∧ r'.value = r.value ∧ r'.merit = r.merit ∧
      r'.accepted = r.accepted := by
  intro C'
  have hp : SameProblem (Renaming.constant 0) C C' := sameProblem_grouping hess left groups groups' hg hg' C hC B'
  have ho : SameOptions C C' := ⟨rfl, rfl, rfl, rfl, rfl, rfl, rfl⟩
  have h := C111_renaming hp ho (.inl rfl) hl ⟨hl.params, hl.deltaInit, hl.deltaMax, hB'⟩ hc S hS _ _ (C111_fresh hp ho S).2 x0 lam0
  change SameOutcome _ (solve (concreteCtx C) S (readySolver C S) x0 m lam0) (solve (concreteCtx C') S (readySolver C' S) x0 m lam0) at h
  rw [hr] at h
  revert h
  cases solve (concreteCtx C') S (readySolver C' S) x0 m lam0 with
  | error e' => intro h; exact h.elim
  | ok r' =>
    rintro ⟨hd, -, rfl⟩
    refine ⟨_, rfl, rfl, rfl, rfl, rfl, rfl, rfl, rfl, rfl, rfl, add_zero _, add_zero _, ?_⟩
    exact List.map_id _

/-! ### Witnesses -/

namespace Demo

/-- the positive definite program of C83 with four kinds of constraints -/
theorem cvHessian (B : Backend ℚ 2 4) (fuel : ℕ) : ConvexHessian (cvCfg .exact B fuel) := by
  have e : ∀ x l rho t, 0 ≤ rho → usedHessian (cvCfg .exact B fuel) x l rho t = Matrix.of ![![2 + rho, 1], ![1, 3 + rho]] := by
    intro x l rho t h
    rcases h.eq_or_lt with rfl | h
    · ext a b
      fin_cases a <;> fin_cases b <;> simp [usedHessian, kktHessian, cvCfg, qpCfg, cvQp]
    · ext a b
      fin_cases a <;> fin_cases b <;> simp [usedHessian, kktHessian, cvCfg, qpCfg, cvQp, h] <;> erw [Matrix.add_apply] <;> simp
  refine ⟨.inl rfl, fun x l rho t h => ?_, fun x l rho t h => ?_⟩
  · rw [e x l rho t h]
    ext a b
    fin_cases a <;> fin_cases b <;> simp
  · rw [e x l rho t h]
    intro v hv
    have : v 0 ≠ 0 ∨ v 1 ≠ 0 := by
      by_contra hc
      push Not at hc
      exact hv (funext fun j => by fin_cases j; exacts [hc.1, hc.2])
    simp only [quad, Fin.sum_univ_two, Matrix.of_apply, Matrix.cons_val_zero, Matrix.cons_val_one]
    rcases this with h0 | h0
    · have := sq_pos_of_ne_zero h0
      nlinarith [sq_nonneg (v 0 + v 1), sq_nonneg (v 1), mul_nonneg h (sq_nonneg (v 0)), mul_nonneg h (sq_nonneg (v 1))]
    · have := sq_pos_of_ne_zero h0
      nlinarith [sq_nonneg (v 0 + v 1), sq_nonneg (v 0), mul_nonneg h (sq_nonneg (v 0)), mul_nonneg h (sq_nonneg (v 1))]

theorem cvLinear (B : Backend ℚ 2 4) (hB : LibraryBackend B) (fuel : ℕ) : LibraryLinear (cvCfg .exact B fuel) :=
  ⟨inertiaDefaults_good, rfl, by norm_num [cvCfg, qpCfg, inertiaDefaults], hB⟩

theorem cvPlain : PlainSettings cvSettings := by constructor <;> norm_num [cvSettings, qpSettings]

/-- `x²/4` at the point 2, an exception everywhere else -/
def throwing : StepCfg ℚ ℚ 1 0 :=
  { quarter .exact .classic with eval := fun x => if x = 2 then some (1, Fin.elim0) else none }

end Demo

/-- non-vacuity of `C111_constraint_order`, `C111_linear_solver`, `C111_variable_order`: a program with four kinds of constraints, its rows or its
variables in another order, any two linear solvers of the library, any start; the first solve ends before the iteration limit, so the second does -/
example (B B' : Backend ℚ 2 4) (hB : LibraryBackend B) (hB' : LibraryBackend B') (σ : Equiv.Perm (Fin 4)) (τ : Equiv.Perm (Fin 2)) :
    ∃ F, ∀ x0 : Fin 2 → ℚ, ∃ N r r' q, 0 < N ∧
      solve (concreteCtx (Demo.cvCfg .exact B F)) { Demo.cvSettings with maxIters := N }
        (readySolver (Demo.cvCfg .exact B F) { Demo.cvSettings with maxIters := N }) x0 4 (fun _ => 0) = .ok r ∧ r.converged ≠ .maxIters ∧
      solve (concreteCtx { reorderRows σ Demo.cvLeaf (Demo.cvCfg .exact B F) with backend := B' }) { Demo.cvSettings with maxIters := N }
        (readySolver { reorderRows σ Demo.cvLeaf (Demo.cvCfg .exact B F) with backend := B' } { Demo.cvSettings with maxIters := N }) x0 4
        (fun _ => 0) = .ok r' ∧ r'.converged ≠ .maxIters ∧ r'.xOpt = r.xOpt ∧
      solve (concreteCtx { reorderVars τ (Demo.cvCfg .exact B F) with backend := B' }) { Demo.cvSettings with maxIters := N }
        (readySolver { reorderVars τ (Demo.cvCfg .exact B F) with backend := B' } { Demo.cvSettings with maxIters := N }) (fun j => x0 (τ j)) 4
        (fun _ => 0) = .ok q ∧ q.lamsOpt = r.lamsOpt := by
  obtain ⟨F, hF⟩ := C83_solve_ends (n := 2) (m := 4) Demo.inertiaDefaults Demo.inertiaDefaults_good rfl
    (by norm_num [Demo.inertiaDefaults]) Demo.cvLs Demo.cvLs_good
  refine ⟨F, fun x0 => ?_⟩
  obtain ⟨N, r, h1, h2, -, -⟩ := hF _ _ _ _ _ _ rfl rfl le_rfl (Demo.cvSolver B hB F) Demo.cvSettings Demo.cvSettings_ok
    (Demo.qpReady (Demo.cvCfg .exact B F) Demo.cvSettings) x0 4 (fun _ => 0) rfl (by intro h; cases h)
  have hr := h1 (N + 1) (by omega)
  have hS : PlainSettings { Demo.cvSettings with maxIters := N + 1 } := by
    constructor <;> norm_num [Demo.cvSettings, Demo.qpSettings]
  obtain ⟨r', e1, e2, e3, -⟩ := C111_constraint_order σ Demo.cvLeaf (Demo.cvCfg .exact B F) rfl (Demo.cvLinear B hB F) (Demo.cvHessian B F) B' hB'
    { Demo.cvSettings with maxIters := N + 1 } hS x0 (fun _ => 0) r hr
  obtain ⟨q, q1, -, -, q4, -⟩ := C111_variable_order τ (Demo.cvCfg .exact B F) (Demo.cvLinear B hB F) (Demo.cvHessian B F) B' hB'
    { Demo.cvSettings with maxIters := N + 1 } hS x0 (fun _ => 0) r hr
  exact ⟨N + 1, r, r', q, by omega, hr, h2, e1, by rw [e2]; exact h2, e3, q1, q4⟩

/-- non-vacuity of `C111_constant`: `x²/4` and `x²/4 + 7` with BFGS, two steps to the solution -/
example : ∃ r r', solve (concreteCtx (Demo.quarter .bfgs .classic)) (Demo.settings (1 / 100000) (1 / 100) .newton 10 10)
      (readySolver (Demo.quarter .bfgs .classic) (Demo.settings (1 / 100000) (1 / 100) .newton 10 10)) 2 0 Fin.elim0 = .ok r ∧
    solve (concreteCtx (addConstant 7 (Demo.quarter .bfgs .classic))) (Demo.settings (1 / 100000) (1 / 100) .newton 10 10)
      (readySolver (addConstant 7 (Demo.quarter .bfgs .classic)) (Demo.settings (1 / 100000) (1 / 100) .newton 10 10)) 2 0 Fin.elim0 = .ok r' ∧
    r.converged = .success ∧ r'.converged = .success ∧ r'.xOpt = 0 ∧ r.value = 0 ∧ r'.value = 7 ∧ r'.numIters = 2 := by
  obtain ⟨r, hr, hp⟩ := checkSolve_sound (concreteCtx (Demo.quarter .bfgs .classic)) (Demo.settings (1 / 100000) (1 / 100) .newton 10 10) 20
    (readySolver (Demo.quarter .bfgs .classic) (Demo.settings (1 / 100000) (1 / 100) .newton 10 10)) 2 0 Fin.elim0
    (fun s => decide (s.converged = .success ∧ s.xOpt = 0 ∧ s.value = 0 ∧ s.numIters = 2)) (by decide +kernel)
  obtain ⟨p1, p2, p3, p4⟩ := of_decide_eq_true hp
  obtain ⟨r', e1, e2, e3, -, e5, -, -, -, -, e10, -⟩ := (C111_constant 7 (Demo.quarter .bfgs .classic) (by simp [Demo.quarter])
    (by intros; rfl) (Demo.settings (1 / 100000) (1 / 100) .newton 10 10) (by decide) (by decide) 2 Fin.elim0).2 r hr
  exact ⟨r, r', hr, e1, p1, by rw [e2, p1], by rw [e3, p2], p3, by rw [e10, p3]; norm_num, by rw [e5, p4]⟩

/-- **C111 is false for a constant in the cost when functions throw**: if every trial of the line search throws, the step and the merit value 0 are
taken although nothing was evaluated, and the value 0 is compared with the merit of the current point: with the cost larger by 7 the reported
merit is 0 as well. -/
theorem C111_constant_throws_false : ∃ r r',
    solve (concreteCtx Demo.throwing) Demo.oneIter (readySolver Demo.throwing Demo.oneIter) 2 0 Fin.elim0 = .ok r ∧
    solve (concreteCtx (addConstant 7 Demo.throwing)) Demo.oneIter (readySolver (addConstant 7 Demo.throwing) Demo.oneIter) 2 0 Fin.elim0 = .ok r' ∧
    r.value = 1 ∧ r'.value = 8 ∧ r.merit = 0 ∧ r'.merit = 0 ∧ Demo.throwing.eval r.xOpt = none := by
  obtain ⟨r, hr, hp⟩ := checkSolve_sound (concreteCtx Demo.throwing) Demo.oneIter 20 (readySolver Demo.throwing Demo.oneIter) 2 0 Fin.elim0
    (fun s => decide (s.value = 1 ∧ s.merit = 0 ∧ s.xOpt ≠ 2)) (by decide +kernel)
  obtain ⟨r', hr', hp'⟩ := checkSolve_sound (concreteCtx (addConstant 7 Demo.throwing)) Demo.oneIter 20
    (readySolver (addConstant 7 Demo.throwing) Demo.oneIter) 2 0 Fin.elim0
    (fun s => decide (s.value = 8 ∧ s.merit = 0)) (by decide +kernel)
  obtain ⟨p1, p2, p3⟩ := of_decide_eq_true hp
  obtain ⟨q1, q2⟩ := of_decide_eq_true hp'
  exact ⟨r, r', hr, hr', p1, q1, p2, q2, by simp [Demo.throwing, p3]⟩

namespace Demo

/-- second derivatives of the constraints `x² = 1` and `x = 1` -/
def curvedHess : (Fin 1 → ℚ) → Fin 2 → Matrix (Fin 1) (Fin 1) ℚ := fun _ i => Matrix.of fun _ _ => if i = 0 then 2 else 0

/-- `min x²/2` subject to `x² = 1` and `x = 1`, as two constraint objects -/
def curved : StepCfg (Fin 1 → ℚ) ℚ 1 2 :=
  { qpCfg { H := 1, g := 0, A := 0, b := 0 } .classic (denseBackend 0 (DenseObj.init 3)) 40 with
    eval := fun x => some (x 0 ^ 2 / 2, ![x 0 ^ 2 - 1, x 0 - 1])
    jac := fun x => ![![2 * x 0], ![1]]
    cstrVhp := groupedRows curvedHess (fun _ => true) [[0], [1]] }

end Demo

/-- non-vacuity of `C111_grouping`: two curved constraints, as two objects and as one; a solve of two steps -/
example : IsGrouping (fun _ : Fin 2 => true) [[0], [1]] ∧ IsGrouping (fun _ : Fin 2 => true) [[1, 0]] ∧
    Demo.curved.cstrVhp = groupedRows Demo.curvedHess (fun _ => true) [[0], [1]] ∧ Demo.curved.cstrVhp 0 ![1, 1] ≠ [(true, 0), (true, 0)] ∧
    ∃ r r', solve (concreteCtx Demo.curved) { Demo.qpSettings with maxIters := 2 } (readySolver Demo.curved { Demo.qpSettings with maxIters := 2 })
        (fun _ => 2) 2 (fun _ => 1) = .ok r ∧ r.accepted.length = 2 ∧
      solve (concreteCtx { Demo.curved with cstrVhp := groupedRows Demo.curvedHess (fun _ => true) [[1, 0]] })
        { Demo.qpSettings with maxIters := 2 }
        (readySolver { Demo.curved with cstrVhp := groupedRows Demo.curvedHess (fun _ => true) [[1, 0]] } { Demo.qpSettings with maxIters := 2 })
        (fun _ => 2) 2 (fun _ => 1) = .ok r' ∧ r'.xOpt = r.xOpt := by
  have g1 : IsGrouping (fun _ : Fin 2 => true) [[0], [1]] := ⟨by decide, by simp⟩
  have g2 : IsGrouping (fun _ : Fin 2 => true) [[1, 0]] := ⟨by decide, by simp⟩
  refine ⟨g1, g2, rfl, fun h => ?_, ?_⟩
  · have := congrArg (fun v : List (Bool × Matrix (Fin 1) (Fin 1) ℚ) => (v.map fun p => p.2 0 0).sum) h
    simp [Demo.curved, groupedRows, Demo.curvedHess] at this
  · obtain ⟨r, hr, hp⟩ := checkSolve_sound (concreteCtx Demo.curved) { Demo.qpSettings with maxIters := 2 } 40
      (readySolver Demo.curved { Demo.qpSettings with maxIters := 2 }) (fun _ => 2) 2 (fun _ => 1)
      (fun s => decide (s.accepted.length = 2)) (by decide +kernel)
    obtain ⟨r', e1, -, e2, -⟩ := (C111_grouping Demo.curvedHess (fun _ => true) [[0], [1]] [[1, 0]] g1 g2 Demo.curved rfl
      { Demo.qpSettings with maxIters := 2 } (by decide) (by decide) (fun _ => 2) (fun _ => 1)).2 r hr
    exact ⟨r, r', hr, of_decide_eq_true hp, e1, e2⟩

end ProxNLP
