import Verif.Spec.Qp
import Verif.Props.Backends
import Mathlib.Tactic.LinearCombination
import Mathlib.Algebra.Order.Archimedean.Basic

/-! Helper lemmas for C80: one step on a quadratic program with equality constraints. -/

set_option linter.unusedSectionVars false
namespace ProxNLP

open Spec

variable {K : Type} {n m : ℕ} [Field K] [LinearOrder K] [IsStrictOrderedRing K]

theorem sum_symm_mul (H : Matrix (Fin n) (Fin n) K) (hs : H.IsSymm) (v w : Fin n → K) :
    ∑ j, v j * ∑ k, H j k * w k = ∑ j, w j * ∑ k, H j k * v k := by
  simp only [Finset.mul_sum]
  rw [Finset.sum_comm]
  refine Finset.sum_congr rfl fun j _ => Finset.sum_congr rfl fun k _ => ?_
  rw [hs.apply j k]
  ring

theorem Spec.Qp.cost_add (q : Qp K n m) (hs : q.H.IsSymm) (x d : Fin n → K) :
    q.cost (x + d) = q.cost x + ∑ j, q.gradient x j * d j + 1 / 2 * ∑ j, d j * ∑ k, q.H j k * d k := by
  have e : ∑ j, (x + d) j * ∑ k, q.H j k * (x + d) k =
      ∑ j, x j * ∑ k, q.H j k * x k + ∑ j, x j * ∑ k, q.H j k * d k + ∑ j, d j * ∑ k, q.H j k * x k +
        ∑ j, d j * ∑ k, q.H j k * d k := by
    simp only [Pi.add_apply, mul_add, add_mul, Finset.sum_add_distrib]
    ring
  have e2 : ∑ j, q.gradient x j * d j = ∑ j, d j * ∑ k, q.H j k * x k + ∑ j, q.g j * d j := by
    simp only [Qp.gradient, add_mul, Finset.sum_add_distrib]
    congr 1
    exact Finset.sum_congr rfl fun j _ => mul_comm _ _
  have e3 : ∑ j, q.g j * (x + d) j = ∑ j, q.g j * x j + ∑ j, q.g j * d j := by
    simp only [Pi.add_apply, mul_add, Finset.sum_add_distrib]
  simp only [Qp.cost]
  rw [e, e2, e3, sum_symm_mul q.H hs x d]
  ring

theorem Spec.Qp.residual_add (q : Qp K n m) (x d : Fin n → K) (i : Fin m) :
    q.residual (x + d) i = q.residual x i + ∑ j, q.A i j * d j := by
  simp only [Qp.residual, Pi.add_apply, mul_add, Finset.sum_add_distrib]
  ring

theorem Spec.Qp.gradient_add (q : Qp K n m) (x d : Fin n → K) (j : Fin n) :
    q.gradient (x + d) j = q.gradient x j + ∑ k, q.H j k * d k := by
  simp only [Qp.gradient, Pi.add_apply, mul_add, Finset.sum_add_distrib]
  ring

/-- the merit function on a quadratic program with equality constraints -/
def qpMerit (q : Qp K n m) (mu : K) (prev : Fin m → K) (x : Fin n → K) (lam : Fin m → K) : K :=
  q.cost x + (2 * (0 + (1 / 2) * (1 / mu) * ∑ i, (q.residual x i + mu * prev i - (1 / 2) * mu * lam i) ^ 2) +
    mu * (∑ i, lam i ^ 2) / 4)

/-- the full Newton step reaches the solution of the subproblem and satisfies the Armijo condition with constant 1/2 -/
theorem qp_newton (q : Qp K n m) (hs : q.H.IsSymm) (hpos : ∀ v : Fin n → K, 0 ≤ ∑ j, v j * ∑ k, q.H j k * v k) (mu : K) (hmu : 0 < mu)
    (prev : Fin m → K) (x d : Fin n → K) (lam dl : Fin m → K)
    (h1 : ∀ j, ∑ k, q.H j k * d k + ∑ i, q.A i j * dl i = -q.lagrangian x lam j)
    (h2 : ∀ i, ∑ j, q.A i j * d j - mu * dl i = -(q.residual x i + mu * (prev i - lam i)))
    (slope : K) (hsl : slope = ∑ j, (q.gradient x j + ∑ i, q.A i j * ((q.residual x i + mu * prev i - 1 / 2 * mu * lam i) * (1 / mu / (1 / 2)))) * d j +
      ∑ i, 1 / 2 * mu * (lam i - (q.residual x i + mu * prev i - 1 / 2 * mu * lam i) * (1 / mu / (1 / 2))) * dl i) :
    q.SubOptimal mu prev (x + d) (lam + dl) ∧ slope ≤ 0 ∧
    qpMerit q mu prev (x + d) (lam + dl) - qpMerit q mu prev x lam = 1 / 2 * slope ∧ slope ≤ -∑ j, d j * ∑ k, q.H j k * d k := by
  have hmu' := hmu.ne'
  have hsub : q.SubOptimal mu prev (x + d) (lam + dl) := by
    refine ⟨fun j => ?_, fun i => ?_⟩
    · have := h1 j
      simp only [Qp.lagrangian, Qp.gradient_add, Pi.add_apply, mul_add, Finset.sum_add_distrib] at this ⊢
      linear_combination this
    · have := h2 i
      rw [Qp.residual_add, Pi.add_apply]
      linear_combination this
  set s : Fin m → K := fun i => q.residual x i + mu * prev i - 1 / 2 * mu * lam i with hsdef
  set a : Fin m → K := fun i => ∑ j, q.A i j * d j with hadef
  set Q := ∑ j, d j * ∑ k, q.H j k * d k with hQ
  -- slope
  have hslope : slope = ∑ j, q.gradient x j * d j + ∑ i, (2 / mu * s i * (a i - 1 / 2 * mu * dl i) + mu / 2 * lam i * dl i) := by
    rw [hsl]
    have e : ∀ j, (q.gradient x j + ∑ i, q.A i j * (s i * (1 / mu / (1 / 2)))) * d j =
        q.gradient x j * d j + ∑ i, q.A i j * d j * (s i * (1 / mu / (1 / 2))) := by
      intro j
      rw [add_mul, Finset.sum_mul]
      congr 1
      exact Finset.sum_congr rfl fun i _ => by ring
    rw [Finset.sum_congr rfl fun j _ => e j, Finset.sum_add_distrib, Finset.sum_comm, add_assoc, ← Finset.sum_add_distrib]
    congr 1
    refine Finset.sum_congr rfl fun i _ => ?_
    rw [← Finset.sum_mul]
    simp only [hadef]
    field_simp
    ring
  -- Newton equations
  have hgd : ∑ j, q.gradient x j * d j = -Q - ∑ i, a i * (lam i + dl i) := by
    have e : ∀ j, q.gradient x j * d j = -(d j * ∑ k, q.H j k * d k) - ∑ i, q.A i j * d j * (lam i + dl i) := by
      intro j
      have := h1 j
      simp only [Qp.lagrangian] at this
      have e2 : ∑ i, q.A i j * d j * (lam i + dl i) = d j * (∑ i, q.A i j * lam i + ∑ i, q.A i j * dl i) := by
        rw [← Finset.sum_add_distrib, Finset.mul_sum]
        exact Finset.sum_congr rfl fun i _ => by ring
      rw [e2]
      linear_combination d j * this
    rw [Finset.sum_congr rfl fun j _ => e j, Finset.sum_sub_distrib, Finset.sum_neg_distrib, Finset.sum_comm]
    congr 1
    refine Finset.sum_congr rfl fun i _ => ?_
    rw [← Finset.sum_mul]
  have ha : ∀ i, a i = mu * dl i - s i + 1 / 2 * mu * lam i := by
    intro i
    have := h2 i
    simp only [hadef, hsdef]
    linear_combination this
  have hD : slope = -(Q + ∑ i, (2 / mu * (a i - 1 / 2 * mu * dl i) ^ 2 + mu / 2 * dl i ^ 2)) := by
    rw [hslope, hgd, neg_add, sub_eq_add_neg, add_assoc]
    congr 1
    rw [← Finset.sum_neg_distrib, ← Finset.sum_neg_distrib, ← Finset.sum_add_distrib]
    refine Finset.sum_congr rfl fun i _ => ?_
    rw [ha i]
    field_simp
    ring
  refine ⟨hsub, ?_, ?_, ?_⟩
  · rw [hD]
    have : 0 ≤ ∑ i, (2 / mu * (a i - 1 / 2 * mu * dl i) ^ 2 + mu / 2 * dl i ^ 2) :=
      Finset.sum_nonneg fun i _ => by positivity
    have := hpos d
    linarith
  · have hmd : qpMerit q mu prev (x + d) (lam + dl) - qpMerit q mu prev x lam =
        slope + 1 / 2 * (Q + ∑ i, (2 / mu * (a i - 1 / 2 * mu * dl i) ^ 2 + mu / 2 * dl i ^ 2)) := by
      rw [hslope]
      simp only [qpMerit, Qp.cost_add q hs, Qp.residual_add, ← hQ]
      have e : ∀ i, (q.residual x i + ∑ j, q.A i j * d j + mu * prev i - 1 / 2 * mu * (lam + dl) i) ^ 2 =
          (q.residual x i + mu * prev i - 1 / 2 * mu * lam i) ^ 2 + (2 * s i * (a i - 1 / 2 * mu * dl i) + (a i - 1 / 2 * mu * dl i) ^ 2) := by
        intro i
        simp only [hsdef, hadef, Pi.add_apply]
        ring
      have e2 : ∀ i, (lam + dl) i ^ 2 = lam i ^ 2 + (2 * lam i * dl i + dl i ^ 2) := by
        intro i; rw [Pi.add_apply]; ring
      rw [Finset.sum_congr rfl fun i _ => e i, Finset.sum_congr rfl fun i _ => e2 i]
      have e3 : ∑ i, (2 / mu * s i * (a i - 1 / 2 * mu * dl i) + mu / 2 * lam i * dl i) +
          1 / 2 * ∑ i, (2 / mu * (a i - 1 / 2 * mu * dl i) ^ 2 + mu / 2 * dl i ^ 2) =
          1 / mu * ∑ i, (2 * s i * (a i - 1 / 2 * mu * dl i) + (a i - 1 / 2 * mu * dl i) ^ 2) + mu / 4 * ∑ i, (2 * lam i * dl i + dl i ^ 2) := by
        rw [Finset.mul_sum, Finset.mul_sum, Finset.mul_sum, ← Finset.sum_add_distrib, ← Finset.sum_add_distrib]
        refine Finset.sum_congr rfl fun i _ => ?_
        field_simp
        ring
      simp only [Finset.sum_add_distrib] at e3 ⊢
      linear_combination (-1 : K) * e3
    rw [hmd, hD]
    ring
  · rw [hD]
    have : 0 ≤ ∑ i, (2 / mu * (a i - 1 / 2 * mu * dl i) ^ 2 + mu / 2 * dl i ^ 2) :=
      Finset.sum_nonneg fun i _ => by positivity
    linarith

/-- the line search accepts the full step when it satisfies the Armijo condition -/
theorem lsRun_full (sqrt : K → K) (sing : LSSample K → LSSample K → K → K → Option K) (phi : K → Option K)
    (o : LSOptions K) (h1 : o.alphaMin ≤ 1) (phi0 dphi0 v : K) (hv : phi 1 = some v) (hA : v - phi0 ≤ o.armijoC1 * 1 * dphi0)
    (fuel : ℕ) (r : LSResult K) (h : lsRun sqrt sing phi o phi0 dphi0 fuel = some r) : r.alpha = 1 := by
  unfold lsRun at h
  cases fuel with
  | zero => simp [lsFirst] at h
  | succ fuel =>
    rw [lsFirst, hv] at h
    simp only at h
    split_ifs at h with ht
    · cases h; rfl
    · cases h
      cases o.maxNumSteps with
      | zero => rw [lsLoop]; exact max_eq_left h1
      | succ k =>
        rw [lsLoop, if_pos (by simpa [LSSample.mk'] using hA)]
        exact max_eq_left h1

theorem kktHessian_zero (ex : Bool) (H P : Matrix (Fin n) (Fin n) K) (l : List (Bool × Matrix (Fin n) (Fin n) K))
    (hl : ∀ p ∈ l, p.2 = 0) : kktHessian ex 0 H P l = H := by
  unfold kktHessian
  rw [if_neg (lt_irrefl _)]
  induction l with
  | nil => rfl
  | cons p l ih =>
    rw [List.foldl_cons, hl p (List.mem_cons_self ..)]
    simp only [add_zero, ite_self]
    exact ih fun p hp => hl p (List.mem_cons_of_mem _ hp)

/-- the linear solver works on the KKT matrices of the quadratic program -/
def Spec.ExactOn (B : Backend K n m) (q : Qp K n m) : Prop :=
  ∀ d : Fin m → K, (∀ i, d i < 0) → ExactAt B (kktMatrix q.H q.A d)

/-- what the solver knows at a point of the quadratic program -/
structure QpInput (C : StepCfg (Fin n → K) K n m) (q : Qp K n m) (i : StepIn (Fin n → K) K (Hidden K n m) n m) : Prop where
  rho : i.rho = 0
  mu : 0 < i.mu
  setMu : i.setMu = i.mu
  c : i.ev.c = q.residual i.x
  grad : i.ev.grad = q.gradient i.x
  jac : i.ev.jac = q.A
  merit : i.ev.merit = qpMerit q i.mu i.lamPrev i.x i.lam
  hess : i.hidden.hess = q.H
  vhps : ∀ p ∈ i.hidden.vhps, p.2 = 0

theorem Spec.Qp.StronglyConvex.posDef {q : Qp K n m} {h : K} (hc : q.StronglyConvex h) : PosDef q.H := by
  intro v hv
  obtain ⟨j, hj⟩ := Function.ne_iff.1 hv
  refine lt_of_lt_of_le (mul_pos hc.pos ?_) (hc.bound v)
  exact Finset.sum_pos' (fun i _ => sq_nonneg _) ⟨j, Finset.mem_univ _, by
    have := mul_self_pos.2 hj; rw [pow_two]; exact this⟩

/-- one step on a quadratic program with equality constraints: the full Newton step is accepted and solves the subproblem -/
theorem qp_step (C : StepCfg (Fin n → K) K n m) (q : Qp K n m) (hq : IsQp C q) (h : K) (hc : q.StronglyConvex h)
    (hp : GoodParams C.inertia) (h0 : C.inertia.deltaInit = 0) (hmax : 0 ≤ C.inertia.deltaMax) (hB : ExactOn C.backend q)
    (ham : C.ls.alphaMin ≤ 1) (hc1 : C.ls.armijoC1 ≤ 1 / 2)
    (i : StepIn (Fin n → K) K (Hidden K n m) n m) (hi : QpInput C q i)
    (o : StepOut (Fin n → K) K (Hidden K n m) m) (ho : stepFull C i = .ok o) :
    q.SubOptimal i.mu i.lamPrev o.x o.lam := by
  obtain ⟨d, st, r, hd, hr, hx, hl, -⟩ := stepFull_ok C i o ho
  set M := computeMultipliers C.sets i.mu i.setMu C.beta i.ev.c i.lam i.lamPrev with hM
  have hkeep : keptRows C.kkt C.sets i.setMu M = fun _ => true := by
    rw [hq.sets]
    cases C.kkt <;> rfl
  have hmask : maskRows (fun _ => true) i.ev.jac = q.A := by
    rw [hi.jac]; rfl
  have hmat : stepMatrix C i M = kktMatrix q.H q.A (kktDual C.kkt i.mu fun _ => true) := by
    unfold stepMatrix
    simp only [hkeep, hmask, hi.rho, hi.hess, kktHessian_zero _ _ _ _ hi.vhps]
  obtain ⟨hsol, -, -⟩ := stepDirection_exact C hp h0 hmax i M (by
    rw [hmat]; exact hB _ (kktDual_neg C.kkt i.mu hi.mu _)) d st hd
  set dx : Fin n → K := fun j => d (.inl j) with hdx
  set dl : Fin m → K := fun k => d (.inr k) with hdl
  have he : Sum.elim dx dl = d := by funext a; cases a <;> rfl
  have hN := (C23_symmetric_iff_newton C.kkt C.sets i.mu i.setMu C.beta i.rho hi.mu.ne' q.H i.ev.jac i.ev.grad i.ev.proxGrad
    i.ev.c i.lam i.lamPrev dx dl M hM).1 (by
      rw [he, hkeep, hmask, ← hmat, hsol]
      unfold stepRhs
      simp only [hkeep, hmask])
  have hmu := hi.mu
  have hmu' := hmu.ne'
  have hlp : ∀ k, M.lamsPlus k = 1 / i.mu * (q.residual i.x k + i.mu * i.lamPrev k) := by
    intro k
    rw [hM, hq.sets, hi.c]
    rfl
  have hpd : ∀ k, M.lamsPdal k = (q.residual i.x k + i.mu * i.lamPrev k - 1 / 2 * i.mu * i.lam k) * (1 / i.mu / (1 / 2)) := by
    intro k
    rw [hM, hq.sets, hi.c, hq.beta]
    rfl
  have h1 : ∀ j, ∑ k, q.H j k * dx k + ∑ k, q.A k j * dl k = -q.lagrangian i.x i.lam j := by
    intro j
    have := hN.1 j
    simp only [rhsPrimal, hi.rho, lt_irrefl, if_false, add_zero, hi.jac, hi.grad] at this
    exact this
  have h2 : ∀ k, ∑ j, q.A k j * dx j - i.mu * dl k = -(q.residual i.x k + i.mu * (i.lamPrev k - i.lam k)) := by
    intro k
    have := hN.2
    rw [hkeep] at this
    cases hk : C.kkt with
    | classic =>
      rw [hk] at this
      have := this k
      simp only [if_true, rhsDual, hlp, hi.jac] at this
      rw [this]
      field_simp
      ring
    | primalDual =>
      rw [hk] at this
      have := this k
      simp only [if_true, rhsDual, hpd, hi.jac] at this
      have e : ∑ j, q.A k j * dx j - i.mu * dl k = ∑ j, q.A k j * dx j - i.mu / 2 * dl k - i.mu / 2 * dl k := by ring
      rw [e, this]
      field_simp
      ring
  obtain ⟨hsub, hneg, hdec, -⟩ := qp_newton q hc.symm (fun v => le_trans (mul_nonneg hc.pos.le (Finset.sum_nonneg fun _ _ => sq_nonneg _))
    (hc.bound v)) i.mu hmu i.lamPrev i.x dx i.lam dl h1 h2
    (dmeritDir i.rho C.beta i.setMu i.ev.grad i.ev.proxGrad i.ev.jac i.lam M.lamsPdal dx dl) (by
      unfold dmeritDir meritGradient meritDualGradient
      simp only [hi.rho, lt_irrefl, if_false, add_zero, hi.grad, hi.jac, hq.beta, hi.setMu, hpd])
  have hphi : stepPhi C i dx dl 1 = some (qpMerit q i.mu i.lamPrev (i.x + dx) (i.lam + dl)) := by
    unfold stepPhi
    have e1 : C.integrate i.x (fun j => 1 * dx j) = i.x + dx := by
      rw [hq.integrate]; congr 1; funext j; rw [one_mul]
    have e2 : (fun k => i.lam k + 1 * dl k) = i.lam + dl := by funext k; simp
    simp only [e1, e2, hq.eval, hq.sets, hq.beta, hi.setMu, hi.rho, hq.prox, Option.map_some, add_zero]
    congr 1
    unfold meritEvaluate qpMerit
    have e3 : (StackedSet.ofLeaves fun _ : Fin m => (LeafSet.equality (K := K), 0)).evaluate i.mu
        (fun k => (computeMultipliers (StackedSet.ofLeaves fun _ => (.equality, 0)) i.mu i.mu (1 / 2) (q.residual (i.x + dx)) (i.lam + dl) i.lamPrev).shiftPdal k -
          (StackedSet.ofLeaves fun _ => (.equality, 0)).normal i.mu
            (computeMultipliers (StackedSet.ofLeaves fun _ => (.equality, 0)) i.mu i.mu (1 / 2) (q.residual (i.x + dx)) (i.lam + dl) i.lamPrev).shiftPdal k) = 0 := by
      simp [StackedSet.ofLeaves]
    simp only
    rw [e3]
    rfl
  have hone : r.alpha = 1 := by
    refine lsRun_full C.sqrt C.sing _ C.ls ham _ _ _ hphi ?_ _ r hr
    rw [hi.merit, hdec, mul_one]
    exact mul_le_mul_of_nonpos_right hc1 hneg
  rw [hone] at hx hl
  have ex : o.x = i.x + dx := by
    rw [hx, hq.integrate]; congr 1; funext j; rw [one_mul]
  have el : o.lam = i.lam + dl := by
    rw [hl]; funext k; simp [hdl]
  rw [ex, el]
  exact hsub

end ProxNLP
