import Verif.Spec.Newton
import Verif.Lemmas.QpSolve

/-! Helper lemmas for C115: one Newton step on a program with a smooth cost and affine equality constraints. -/

set_option linter.unusedSectionVars false
namespace ProxNLP

open Spec

variable {K : Type} {n m : ℕ} [Field K] [LinearOrder K] [IsStrictOrderedRing K]

/-- the quadratic model at a point -/
def Spec.SmoothProgram.model (P : SmoothProgram K n m) (x : Fin n → K) : Qp K n m where
  H := P.hess x
  g := fun j => P.grad x j - ∑ k, P.hess x j k * x k
  A := P.A
  b := P.b

theorem model_gradient (P : SmoothProgram K n m) (x : Fin n → K) : (P.model x).gradient x = P.grad x := by
  funext j
  show ∑ k, P.hess x j k * x k + (P.grad x j - ∑ k, P.hess x j k * x k) = _
  ring

theorem model_lagrangian (P : SmoothProgram K n m) (x : Fin n → K) (lam : Fin m → K) :
    (P.model x).lagrangian x lam = P.lagrangian x lam := by
  funext j
  show (P.model x).gradient x j + _ = _
  rw [model_gradient]
  rfl

theorem model_residual (P : SmoothProgram K n m) (x y : Fin n → K) : (P.model x).residual y = P.residual y := rfl

/-- the merit function on a smooth program with affine equality constraints -/
def smMerit (P : SmoothProgram K n m) (mu : K) (prev : Fin m → K) (x : Fin n → K) (lam : Fin m → K) : K :=
  P.f x + (2 * (0 + (1 / 2) * (1 / mu) * ∑ i, (P.residual x i + mu * prev i - (1 / 2) * mu * lam i) ^ 2) +
    mu * (∑ i, lam i ^ 2) / 4)

/-- the Newton step is no longer than `δ` -/
theorem sm_length (P : SmoothProgram K n m) (h : K) (hh : 0 < h) (x : Fin n → K)
    (hb : ∀ v : Fin n → K, h * ∑ j, v j ^ 2 ≤ ∑ j, v j * ∑ k, P.hess x j k * v k) (mu : K) (hmu : 0 < mu)
    (prev : Fin m → K) (d : Fin n → K) (lam dl : Fin m → K)
    (h1 : ∀ j, ∑ k, P.hess x j k * d k + ∑ i, P.A i j * dl i = -P.lagrangian x lam j)
    (h2 : ∀ i, ∑ j, P.A i j * d j - mu * dl i = -P.shifted mu prev x lam i) :
    ∑ j, d j ^ 2 ≤ (∑ j, P.lagrangian x lam j ^ 2) / h ^ 2 + (∑ i, P.shifted mu prev x lam i ^ 2) / (2 * mu * h) := by
  have e1 : ∑ j, d j * ∑ k, P.hess x j k * d k = -∑ j, d j * P.lagrangian x lam j - ∑ i, dl i * ∑ j, P.A i j * d j := by
    have : ∀ j, d j * ∑ k, P.hess x j k * d k = -(d j * P.lagrangian x lam j) - ∑ i, dl i * (P.A i j * d j) := by
      intro j
      have e := h1 j
      have e2 : ∑ i, dl i * (P.A i j * d j) = d j * ∑ i, P.A i j * dl i := by
        rw [Finset.mul_sum]; exact Finset.sum_congr rfl fun i _ => by ring
      rw [e2]
      linear_combination d j * e
    rw [Finset.sum_congr rfl fun j _ => this j, Finset.sum_sub_distrib, Finset.sum_neg_distrib, Finset.sum_comm]
    congr 1
    exact Finset.sum_congr rfl fun i _ => (Finset.mul_sum ..).symm
  have e2 : -∑ j, d j * P.lagrangian x lam j ≤ h / 2 * ∑ j, d j ^ 2 + (∑ j, P.lagrangian x lam j ^ 2) / (2 * h) := by
    rw [← Finset.sum_neg_distrib, Finset.mul_sum, Finset.sum_div, ← Finset.sum_add_distrib]
    refine Finset.sum_le_sum fun j _ => ?_
    have : 0 ≤ (h * d j + P.lagrangian x lam j) ^ 2 / (2 * h) := by positivity
    have e : (h * d j + P.lagrangian x lam j) ^ 2 / (2 * h) =
        h / 2 * d j ^ 2 + d j * P.lagrangian x lam j + P.lagrangian x lam j ^ 2 / (2 * h) := by field_simp; ring
    linarith
  have e3 : -∑ i, dl i * ∑ j, P.A i j * d j ≤ (∑ i, P.shifted mu prev x lam i ^ 2) / (4 * mu) := by
    rw [← Finset.sum_neg_distrib, Finset.sum_div]
    refine Finset.sum_le_sum fun i _ => ?_
    have e := h2 i
    have e4 : ∑ j, P.A i j * d j = mu * dl i - P.shifted mu prev x lam i := by linear_combination e
    rw [e4]
    have : 0 ≤ (2 * mu * dl i - P.shifted mu prev x lam i) ^ 2 / (4 * mu) := by positivity
    have e5 : (2 * mu * dl i - P.shifted mu prev x lam i) ^ 2 / (4 * mu) =
        mu * dl i ^ 2 - dl i * P.shifted mu prev x lam i + P.shifted mu prev x lam i ^ 2 / (4 * mu) := by field_simp; ring
    linarith
  have e6 := hb d
  have e7 : h / 2 * ∑ j, d j ^ 2 ≤ (∑ j, P.lagrangian x lam j ^ 2) / (2 * h) + (∑ i, P.shifted mu prev x lam i ^ 2) / (4 * mu) := by
    linarith
  have e8 : (∑ j, P.lagrangian x lam j ^ 2) / h ^ 2 + (∑ i, P.shifted mu prev x lam i ^ 2) / (2 * mu * h) =
      ((∑ j, P.lagrangian x lam j ^ 2) / (2 * h) + (∑ i, P.shifted mu prev x lam i ^ 2) / (4 * mu)) / (h / 2) := by
    field_simp
    ring
  rw [e8, le_div_iff₀ (by positivity)]
  linarith

/-- after a full Newton step of length at most `δ` the residual is at most `L/2 δ²`, and the Armijo condition holds -/
theorem sm_newton (P : SmoothProgram K n m) (h L : K) (hh : 0 < h) (hL : 0 ≤ L) (x : Fin n → K) (hs : (P.hess x).IsSymm)
    (hb : ∀ v : Fin n → K, h * ∑ j, v j ^ 2 ≤ ∑ j, v j * ∑ k, P.hess x j k * v k) (mu : K) (hmu : 0 < mu)
    (prev : Fin m → K) (d : Fin n → K) (lam dl : Fin m → K)
    (h1 : ∀ j, ∑ k, P.hess x j k * d k + ∑ i, P.A i j * dl i = -P.lagrangian x lam j)
    (h2 : ∀ i, ∑ j, P.A i j * d j - mu * dl i = -P.shifted mu prev x lam i)
    (slope : K) (hsl : slope = ∑ j, (P.grad x j + ∑ i, P.A i j * ((P.residual x i + mu * prev i - 1 / 2 * mu * lam i) * (1 / mu / (1 / 2)))) * d j +
      ∑ i, 1 / 2 * mu * (lam i - (P.residual x i + mu * prev i - 1 / 2 * mu * lam i) * (1 / mu / (1 / 2))) * dl i)
    (δ c1 : K) (hδ : 0 ≤ δ) (hlen : ∑ j, d j ^ 2 ≤ δ ^ 2) (hA : L * δ ≤ 6 * h * (1 / 2 - c1))
    (ht1 : ∑ j, (P.grad (x + d) j - P.grad x j - ∑ k, P.hess x j k * d k) ^ 2 ≤ (L / 2) ^ 2 * (∑ j, d j ^ 2) ^ 2)
    (ht2 : (P.f (x + d) - P.f x - ∑ j, P.grad x j * d j - 1 / 2 * ∑ j, d j * ∑ k, P.hess x j k * d k) ^ 2 ≤
      (L / 6) ^ 2 * (∑ j, d j ^ 2) ^ 3) :
    ∑ j, P.lagrangian (x + d) (lam + dl) j ^ 2 ≤ (L / 2 * δ ^ 2) ^ 2 ∧ (∀ i, P.shifted mu prev (x + d) (lam + dl) i = 0) ∧
    smMerit P mu prev (x + d) (lam + dl) - smMerit P mu prev x lam ≤ c1 * slope := by
  obtain ⟨hsub, hneg, hdec, hq⟩ := qp_newton (P.model x) hs
    (fun v => le_trans (mul_nonneg hh.le (Finset.sum_nonneg fun _ _ => sq_nonneg _)) (hb v)) mu hmu prev x d lam dl
    (by intro j; rw [model_lagrangian]; exact h1 j) (by intro i; exact h2 i) slope (by rw [model_gradient]; exact hsl)
  have hd0 : 0 ≤ ∑ j, d j ^ 2 := Finset.sum_nonneg fun _ _ => sq_nonneg _
  refine ⟨?_, fun i => hsub.2 i, ?_⟩
  · have e : ∀ j, P.lagrangian (x + d) (lam + dl) j = P.grad (x + d) j - P.grad x j - ∑ k, P.hess x j k * d k := by
      intro j
      have e1 := hsub.1 j
      have e2 := Qp.gradient_add (P.model x) x d j
      rw [model_gradient] at e2
      have e3 : (P.model x).gradient (x + d) j + ∑ i, P.A i j * (lam + dl) i = 0 := e1
      show P.grad (x + d) j + ∑ i, P.A i j * (lam + dl) i = _
      have e4 : (P.model x).gradient (x + d) j = P.grad x j + ∑ k, P.hess x j k * d k := e2
      linear_combination e3 - e4
    rw [Finset.sum_congr rfl fun j _ => by rw [e j]]
    refine le_trans ht1 ?_
    rw [mul_pow]
    exact mul_le_mul_of_nonneg_left (pow_le_pow_left₀ hd0 hlen 2) (sq_nonneg _)
  · set rem := P.f (x + d) - P.f x - ∑ j, P.grad x j * d j - 1 / 2 * ∑ j, d j * ∑ k, P.hess x j k * d k with hrem
    have e1 : smMerit P mu prev (x + d) (lam + dl) - smMerit P mu prev x lam =
        qpMerit (P.model x) mu prev (x + d) (lam + dl) - qpMerit (P.model x) mu prev x lam + rem := by
      have e2 := Qp.cost_add (P.model x) hs x d
      rw [model_gradient] at e2
      have e3 : (P.model x).cost (x + d) = (P.model x).cost x + ∑ j, P.grad x j * d j + 1 / 2 * ∑ j, d j * ∑ k, P.hess x j k * d k := e2
      simp only [smMerit, qpMerit, model_residual, hrem]
      linear_combination (-1 : K) * e3
    rw [e1, hdec]
    have hc : 0 ≤ 1 / 2 - c1 := by
      have h6 : 0 ≤ 6 * h * (1 / 2 - c1) := le_trans (mul_nonneg hL hδ) hA
      exact nonneg_of_mul_nonneg_right h6 (by positivity : (0 : K) < 6 * h)
    have hrle : rem ≤ (1 / 2 - c1) * h * ∑ j, d j ^ 2 := by
      refine le_trans (le_abs_self rem) (abs_le_of_sq_le_sq (le_trans ht2 ?_) (mul_nonneg (mul_nonneg hc hh.le) hd0))
      have g1 : (L * δ) ^ 2 ≤ (6 * h * (1 / 2 - c1)) ^ 2 := pow_le_pow_left₀ (mul_nonneg hL hδ) hA 2
      have g2 : L ^ 2 * ∑ j, d j ^ 2 ≤ (6 * h * (1 / 2 - c1)) ^ 2 := by
        refine le_trans (mul_le_mul_of_nonneg_left hlen (sq_nonneg L)) ?_
        rw [← mul_pow]; exact g1
      have g3 := mul_le_mul_of_nonneg_left g2 (sq_nonneg (∑ j, d j ^ 2))
      linarith
    have := hb d
    have hq' : slope ≤ -(h * ∑ j, d j ^ 2) := by
      have : slope ≤ -∑ j, d j * ∑ k, P.hess x j k * d k := hq
      linarith
    nlinarith [mul_le_mul_of_nonneg_left hq' hc]

/-- what the solver knows at a point of the program -/
structure SmInput (P : SmoothProgram K n m) (i : StepIn (Fin n → K) K (Hidden K n m) n m) : Prop where
  rho : i.rho = 0
  mu : 0 < i.mu
  setMu : i.setMu = i.mu
  c : i.ev.c = P.residual i.x
  grad : i.ev.grad = P.grad i.x
  jac : i.ev.jac = P.A
  merit : i.ev.merit = smMerit P i.mu i.lamPrev i.x i.lam
  hess : i.hidden.hess = P.hess i.x
  vhps : ∀ p ∈ i.hidden.vhps, p.2 = 0

theorem posDef_of_bound {H : Matrix (Fin n) (Fin n) K} {h : K} (hh : 0 < h)
    (hb : ∀ v : Fin n → K, h * ∑ j, v j ^ 2 ≤ ∑ j, v j * ∑ k, H j k * v k) : PosDef H := by
  intro v hv
  obtain ⟨j, hj⟩ := Function.ne_iff.1 hv
  refine lt_of_lt_of_le (mul_pos hh ?_) (hb v)
  exact Finset.sum_pos' (fun i _ => sq_nonneg _) ⟨j, Finset.mem_univ _, by
    have := mul_self_pos.2 hj; rw [pow_two]; exact this⟩

/-- one step of the solver: the full Newton step is accepted -/
theorem sm_step (C : StepCfg (Fin n → K) K n m) (P : SmoothProgram K n m) (hP : IsSmooth C P) (hC : NewtonSolver C)
    (x0 : Fin n → K) (r0 h L : K) (hR : RegularOn P x0 r0 h L) (δ : K) (hδ : 0 ≤ δ) (hA : L * δ ≤ 6 * h * (1 / 2 - C.ls.armijoC1))
    (i : StepIn (Fin n → K) K (Hidden K n m) n m) (hi : SmInput P i) (hx0 : InBall x0 r0 i.x)
    (hball : ∀ d : Fin n → K, ∑ j, d j ^ 2 ≤ δ ^ 2 → InBall x0 r0 (i.x + d))
    (hfirst : (∑ j, P.lagrangian i.x i.lam j ^ 2) / h ^ 2 + (∑ k, P.shifted i.mu i.lamPrev i.x i.lam k ^ 2) / (2 * i.mu * h) ≤ δ ^ 2)
    (o : StepOut (Fin n → K) K (Hidden K n m) m) (ho : stepFull C i = .ok o) :
    ∃ d : Fin n → K, o.x = i.x + d ∧ ∑ j, d j ^ 2 ≤ δ ^ 2 ∧ ∑ j, P.lagrangian o.x o.lam j ^ 2 ≤ (L / 2 * δ ^ 2) ^ 2 ∧
      ∀ k, P.shifted i.mu i.lamPrev o.x o.lam k = 0 := by
  have hp := hC.params
  have h0 := hC.deltaInit
  have hmax := hC.deltaMax
  have hB := hC.backend
  have ham := hC.alphaMin
  obtain ⟨d, st, r, hd, hr, hx, hl, -⟩ := stepFull_ok C i o ho
  set M := computeMultipliers C.sets i.mu i.setMu C.beta i.ev.c i.lam i.lamPrev with hM
  have hkeep : keptRows C.kkt C.sets i.setMu M = fun _ => true := by
    rw [hP.sets]
    cases C.kkt <;> rfl
  have hmask : maskRows (fun _ => true) i.ev.jac = P.A := by
    rw [hi.jac]; rfl
  have hmat : stepMatrix C i M = kktMatrix (P.hess i.x) P.A (kktDual C.kkt i.mu fun _ => true) := by
    unfold stepMatrix
    simp only [hkeep, hmask, hi.rho, hi.hess, kktHessian_zero _ _ _ _ hi.vhps]
  obtain ⟨hsol, -, -⟩ := stepDirection_exact C hp h0 hmax i M (by
    rw [hmat]; exact C79_exact hB _ (hR.symm _ hx0) (posDef_of_bound hR.pos (hR.bound _ hx0)) _ _ (kktDual_neg C.kkt i.mu hi.mu _)) d st hd
  set dx : Fin n → K := fun j => d (.inl j) with hdx
  set dl : Fin m → K := fun k => d (.inr k) with hdl
  have he : Sum.elim dx dl = d := by funext a; cases a <;> rfl
  have hN := (C23_symmetric_iff_newton C.kkt C.sets i.mu i.setMu C.beta i.rho hi.mu.ne' (P.hess i.x) i.ev.jac i.ev.grad i.ev.proxGrad
    i.ev.c i.lam i.lamPrev dx dl M hM).1 (by
      rw [he, hkeep, hmask, ← hmat, hsol]
      unfold stepRhs
      simp only [hkeep, hmask])
  have hmu := hi.mu
  have hmu' := hmu.ne'
  have hlp : ∀ k, M.lamsPlus k = 1 / i.mu * (P.residual i.x k + i.mu * i.lamPrev k) := by
    intro k
    rw [hM, hP.sets, hi.c]
    rfl
  have hpd : ∀ k, M.lamsPdal k = (P.residual i.x k + i.mu * i.lamPrev k - 1 / 2 * i.mu * i.lam k) * (1 / i.mu / (1 / 2)) := by
    intro k
    rw [hM, hP.sets, hi.c, hP.beta]
    rfl
  have h1 : ∀ j, ∑ k, (P.hess i.x) j k * dx k + ∑ k, P.A k j * dl k = -P.lagrangian i.x i.lam j := by
    intro j
    have := hN.1 j
    simp only [rhsPrimal, hi.rho, lt_irrefl, if_false, add_zero, hi.jac, hi.grad] at this
    exact this
  have h2 : ∀ k, ∑ j, P.A k j * dx j - i.mu * dl k = -P.shifted i.mu i.lamPrev i.x i.lam k := by
    intro k
    have := hN.2
    rw [hkeep] at this
    cases hk : C.kkt with
    | classic =>
      rw [hk] at this
      have := this k
      simp only [if_true, rhsDual, hlp, hi.jac] at this
      rw [this, SmoothProgram.shifted]
      field_simp
      ring
    | primalDual =>
      rw [hk] at this
      have := this k
      simp only [if_true, rhsDual, hpd, hi.jac] at this
      have e : ∑ j, P.A k j * dx j - i.mu * dl k = ∑ j, P.A k j * dx j - i.mu / 2 * dl k - i.mu / 2 * dl k := by ring
      rw [e, this, SmoothProgram.shifted]
      field_simp
      ring
  have hlen : ∑ j, dx j ^ 2 ≤ δ ^ 2 :=
    le_trans (sm_length P h hR.pos i.x (hR.bound _ hx0) i.mu hmu i.lamPrev dx i.lam dl h1 h2) hfirst
  have hxd := hball dx hlen
  obtain ⟨hlag, hsh, hdec⟩ := sm_newton P h L hR.pos hR.lip i.x (hR.symm _ hx0) (hR.bound _ hx0) i.mu hmu i.lamPrev dx i.lam dl h1 h2
    (dmeritDir i.rho C.beta i.setMu i.ev.grad i.ev.proxGrad i.ev.jac i.lam M.lamsPdal dx dl) (by
      unfold dmeritDir meritGradient meritDualGradient
      simp only [hi.rho, lt_irrefl, if_false, add_zero, hi.grad, hi.jac, hP.beta, hi.setMu, hpd]) δ C.ls.armijoC1 hδ hlen hA
    (hR.taylor1 _ _ hx0 hxd) (hR.taylor2 _ _ hx0 hxd)
  have hphi : stepPhi C i dx dl 1 = some (smMerit P i.mu i.lamPrev (i.x + dx) (i.lam + dl)) := by
    unfold stepPhi
    have e1 : C.integrate i.x (fun j => 1 * dx j) = i.x + dx := by
      rw [hP.integrate]; congr 1; funext j; rw [one_mul]
    have e2 : (fun k => i.lam k + 1 * dl k) = i.lam + dl := by funext k; simp
    simp only [e1, e2, hP.eval, hP.sets, hP.beta, hi.setMu, hi.rho, hP.prox, Option.map_some, add_zero]
    congr 1
    unfold meritEvaluate smMerit
    have e3 : (StackedSet.ofLeaves fun _ : Fin m => (LeafSet.equality (K := K), 0)).evaluate i.mu
        (fun k => (computeMultipliers (StackedSet.ofLeaves fun _ => (.equality, 0)) i.mu i.mu (1 / 2) (P.residual (i.x + dx)) (i.lam + dl) i.lamPrev).shiftPdal k -
          (StackedSet.ofLeaves fun _ => (.equality, 0)).normal i.mu
            (computeMultipliers (StackedSet.ofLeaves fun _ => (.equality, 0)) i.mu i.mu (1 / 2) (P.residual (i.x + dx)) (i.lam + dl) i.lamPrev).shiftPdal k) = 0 := by
      simp [StackedSet.ofLeaves]
    simp only
    rw [e3]
    rfl
  have hone : r.alpha = 1 := by
    refine lsRun_full C.sqrt C.sing _ C.ls ham _ _ _ hphi ?_ _ r hr
    rw [hi.merit, mul_one]
    exact hdec
  rw [hone] at hx hl
  have ex : o.x = i.x + dx := by
    rw [hx, hP.integrate]; congr 1; funext j; rw [one_mul]
  have el : o.lam = i.lam + dl := by
    rw [hl]; funext k; simp [hdl]
  exact ⟨dx, ex, hlen, by rw [ex, el]; exact hlag, by rw [ex, el]; exact hsh⟩

/-- what the solver computes at a point of the program -/
theorem sm_eval (C : StepCfg (Fin n → K) K n m) (P : SmoothProgram K n m) (hP : IsSmooth C P) (S : Settings K) (hb : S.pdalBeta = 1 / 2)
    (mu : K) (hmu : 0 < mu) (t x : Fin n → K) (lam prev : Fin m → K) :
    ∃ ev, evalAt (concreteCtx C) S mu mu 0 t x lam prev = some ev ∧ ev.c = P.residual x ∧ ev.grad = P.grad x ∧
      ev.jac = P.A ∧ ev.merit = smMerit P mu prev x lam ∧ ev.prim = inftyNorm (P.residual x) ∧
      ev.dual = inftyNorm (P.lagrangian x lam) ∧
      ev.innerCrit = max (inftyNorm (P.lagrangian x lam)) (inftyNorm fun i => P.residual x i + mu * (prev i - lam i)) := by
  have hmu' := hmu.ne'
  refine ⟨_, by unfold evalAt; rw [show (concreteCtx C).eval x = _ from hP.eval x]; rfl, rfl, hP.grad x, hP.jac x, ?_, ?_, ?_, ?_⟩
  · show (if (0 : K) < 0 then _ else _) = _
    rw [if_neg (lt_irrefl _)]
    unfold smMerit
    show P.f x + _ = _
    have hs : (concreteCtx C).sets = _ := hP.sets
    rw [hs]
    have e3 : ∀ z : Fin m → K, (StackedSet.ofLeaves fun _ : Fin m => (LeafSet.equality (K := K), 0)).evaluate mu z = 0 := by
      intro z; simp [StackedSet.ofLeaves]
    rw [e3]
    rfl
  · show primResidual (concreteCtx C).sets mu mu (P.residual x) lam = _
    have hs : (concreteCtx C).sets = _ := hP.sets
    rw [hs]
    unfold primResidual
    simp only [StackedSet.ofLeaves, LeafSet.projAt, sub_zero]
  · show dualResidual (C.grad x) (C.jac x) lam = _
    rw [hP.grad, hP.jac]
    rfl
  · unfold EvalOut.innerCrit
    congr 1
    · show inftyNorm (if (0 : K) < 0 then _ else _) = _
      rw [if_neg (lt_irrefl _)]
      show inftyNorm (fun j => C.grad x j + ∑ i, C.jac x i j * lam i) = _
      rw [hP.grad, hP.jac]
      rfl
    · congr 1
      funext i
      have hs : (concreteCtx C).sets = _ := hP.sets
      cases S.kkt
      · show mu * (1 / mu * (concreteCtx C).sets.normal mu _ i - lam i) = _
        rw [hs]
        show mu * (1 / mu * (P.residual x i + mu * prev i) - lam i) = _
        field_simp
        ring
      · show 1 / 2 * mu * ((concreteCtx C).sets.normal mu _ i * (1 / mu / S.pdalBeta) - lam i) = _
        rw [hs, hb]
        show 1 / 2 * mu * ((P.residual x i + mu * prev i - 1 / 2 * mu * lam i) * (1 / mu / (1 / 2)) - lam i) = _
        field_simp
        ring

end ProxNLP
