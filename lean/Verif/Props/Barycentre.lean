import Verif.Spec.Barycentre
import Verif.Props.CostSum
import Verif.Props.Solver
import Verif.Props.DistanceCost
import Mathlib.Algebra.BigOperators.Ring.Finset
import Mathlib.Algebra.Order.Chebyshev
import Mathlib.Data.Fin.VecNotation
import Mathlib.Tactic.FieldSimp
import Mathlib.Tactic.LinearCombination
import Mathlib.Tactic.Ring

/-!
# C127: a weighted sum of distances to points is the distance to their weighted mean

`N` distance costs with a common weight matrix, put together by any expression.
-/

set_option linter.unusedSectionVars false

namespace ProxNLP

open Spec Finset

variable {K : Type} [Field K] {n : ℕ}

/-- The objects that exist before the expression is evaluated: the `N` distance costs (squared-distance.hpp, held by the `shared_ptr`s of
cost-sum.hpp:19-20). -/
def leafHeap (K : Type) (N : ℕ) : CostHeap K := (List.range N).map .leaf

private lemma leaf_computes {V : Type} [AddCommGroup V] [Module K V] (N : ℕ) (leafVal : ℕ → V) (j : ℕ) (hj : j < N) :
    Computes leafVal (leafHeap K N) j (leafVal j) := by
  refine ⟨1, fun fuel hf => ?_⟩
  obtain ⟨k, rfl⟩ : ∃ k, fuel = k + 1 := ⟨fuel - 1, by omega⟩
  simp [costEval, leafHeap, hj]

private lemma build_denote {V : Type} [AddCommGroup V] [Module K V] (val : ℕ → V) (N : ℕ) (e : CostExpr K) :
    ∀ (h h' : CostHeap K) (i : ℕ), e.build N h = some (h', i) → denote val e = ∑ j ∈ range N, weightIn j e • val j := by
  induction e with
  | var id =>
    intro h h' i hb
    simp only [CostExpr.build] at hb
    split at hb
    · rename_i hid
      simp [denote, weightIn, ite_smul, hid]
    · cases hb
  | add l r ihl ihr =>
    intro h h' i hb
    simp only [CostExpr.build] at hb
    cases h1 : l.build N h with
    | none => simp [h1] at hb
    | some p =>
      cases h2 : r.build N p.1 with
      | none => simp [h1, h2] at hb
      | some q => simp only [denote, weightIn, add_smul, sum_add_distrib, ihl _ _ _ h1, ihr _ _ _ h2]
  | addMove l r ihl ihr =>
    intro h h' i hb
    simp only [CostExpr.build] at hb
    cases h1 : l.build N h with
    | none => simp [h1] at hb
    | some p =>
      cases h2 : r.build N p.1 with
      | none => simp [h1, h2] at hb
      | some q => simp only [denote, weightIn, add_smul, sum_add_distrib, ihl _ _ _ h1, ihr _ _ _ h2]
  | smul a e ih =>
    intro h h' i hb
    simp only [CostExpr.build] at hb
    cases h1 : e.build N h with
    | none => simp [h1] at hb
    | some p => simp only [denote, weightIn, mul_smul, ← smul_sum, ih _ _ _ h1]
  | mulSum e a ih =>
    intro h h' i hb
    simp only [CostExpr.build] at hb
    cases h1 : e.build N h with
    | none => simp [h1] at hb
    | some p => simp only [denote, weightIn, mul_smul, ← smul_sum, ih _ _ _ h1]
  | neg e ih =>
    intro h h' i hb
    simp only [CostExpr.build] at hb
    cases h1 : e.build N h with
    | none => simp [h1] at hb
    | some p => simp only [denote, weightIn, neg_smul, sum_neg_distrib, ih _ _ _ h1]

/-- **C127, the distances**: a `QuadraticDistanceCost(VectorSpace(n), t, W)` evaluates to `½ (x - t)ᵀ W (x - t)`, and its gradient is then
`W (x - t)`: these are the costs the other theorems speak about. -/
theorem C127_distances (s : DistState K) (W : ℕ → ℕ → K) (t x : Fin n → K) (J0 : ℕ → ℕ → K) :
    ∃ s1 s2, s.new (vectorSpace n) (List.ofFn t) n n W = .ok s1 ∧
      s1.call s.costs.length (List.ofFn x) = .ok (s2, distValue (fun a b => W a b) t x) ∧
      s2.gradient s.costs.length (List.ofFn x) J0 = .ok (List.ofFn (distGrad (fun a b => W a b) t x)) := by
  have hsub : vSub (List.ofFn x) (List.ofFn t) = List.ofFn (x - t) := by
    apply List.ext_getElem
    · simp [vSub]
    · intro k h1 h2
      simp [vSub]
  have hget : ∀ a : Fin n, (List.ofFn (x - t)).getD a 0 = x a - t a := fun a => by
    rw [List.getD_eq_getElem _ _ (by simp)]
    simp
  refine ⟨_, { residuals := s.residuals ++ [⟨vectorSpace n, List.ofFn t⟩]
               costs := s.costs ++ [⟨s.residuals.length, n, n, W, List.ofFn (x - t)⟩] }, distNew_of s n n W rfl, ?_, ?_⟩
  · simp only [DistState.call, StateResidual.eval, vectorSpace, List.getElem?_concat_length, freshVec, List.length_ofFn,
      List.length_replicate, and_self, if_true, hsub, bind, Except.bind, pure, Except.pure]
    rw [distValue, quadForm]
    simp only [Finset.sum_range, hget, Pi.sub_apply]
    simp
  · simp only [DistState.gradient, StateResidual.jac, vectorSpace, List.getElem?_concat_length]
    simp [Finset.sum_range, idMat, bind, Except.bind, pure, Except.pure]
    apply List.ext_getElem
    · simp
    · intro k h1 h2
      have hk : k < n := by simpa using h1
      simp [hk, distGrad]

/-- what the object made by the expression evaluates to -/
private lemma made_computes {V : Type} [AddCommGroup V] [Module K V] (N : ℕ) (leafVal : ℕ → V) (e : CostExpr K) (h' : CostHeap K) (i : ℕ)
    (hb : e.build N (leafHeap K N) = some (h', i)) : Computes leafVal h' i (∑ j ∈ range N, weightIn j e • leafVal j) := by
  have hl : (leafHeap K N).length = N := by simp [leafHeap]
  have := (C37_expression leafVal (leafHeap K N) h' e i leafVal (fun j hj => leaf_computes N leafVal j (hl ▸ hj)) (by rw [hl]; exact hb)).1
  rwa [build_denote leafVal N e _ _ _ hb] at this

private lemma bary_mul (N : ℕ) (t : ℕ → Fin n → K) (e : CostExpr K) (hS : totalWeight N e ≠ 0) (a : Fin n) :
    totalWeight N e * barycentre N t e a = ∑ j ∈ range N, weightIn j e * t j a := by
  unfold barycentre
  field_simp

/-- **C127, gradient and Hessian**: the gradient of the sum at `x` is the total weight times `W (x - mean)`, its Hessian the total
weight times `W`. -/
theorem C127_gradient (N : ℕ) (W : Fin n → Fin n → K) (t : ℕ → Fin n → K) (e : CostExpr K) (h' : CostHeap K) (i : ℕ)
    (hb : e.build N (leafHeap K N) = some (h', i)) (hS : totalWeight N e ≠ 0) (x : Fin n → K) :
    Computes (fun j => distGrad W (t j) x) h' i (fun a => totalWeight N e * ∑ b, W a b * (x b - barycentre N t e b)) ∧
    Computes (fun _ => W) h' i (totalWeight N e • W) := by
  have h1 := made_computes N (fun j => distGrad W (t j) x) e h' i hb
  have h2 := made_computes N (fun _ => W) e h' i hb
  refine ⟨?_, by rwa [← sum_smul] at h2⟩
  convert h1 using 1
  funext a
  simp only [Finset.sum_apply, Pi.smul_apply, smul_eq_mul, distGrad, mul_sum]
  rw [sum_comm]
  refine sum_congr rfl fun b _ => ?_
  have := bary_mul N t e hS b
  have e2 : ∑ j ∈ range N, weightIn j e * (W a b * (x b - t j b)) =
      W a b * (x b * totalWeight N e - ∑ j ∈ range N, weightIn j e * t j b) := by
    rw [totalWeight, mul_sum, ← sum_sub_distrib, mul_sum]
    exact sum_congr rfl fun j _ => by ring
  rw [e2, ← this]
  ring

private lemma quadForm_add (W : Fin n → Fin n → K) (hW : ∀ a b, W a b = W b a) (c d : Fin n → K) :
    quadForm W (c + d) = quadForm W c + quadForm W d + 2 * ∑ a, c a * ∑ b, W a b * d b := by
  have hsym : ∑ a, d a * ∑ b, W a b * c b = ∑ a, c a * ∑ b, W a b * d b := by
    simp only [mul_sum]
    rw [sum_comm]
    exact sum_congr rfl fun a _ => sum_congr rfl fun b _ => by rw [hW]; ring
  unfold quadForm
  simp only [Pi.add_apply, mul_add, add_mul, sum_add_distrib]
  rw [hsym]
  ring

/-- **C127, value**: up to a constant the sum of the distances is the total weight times the distance to the weighted mean. -/
theorem C127_value [NeZero (2 : K)] (N : ℕ) (W : Fin n → Fin n → K) (hW : ∀ a b, W a b = W b a) (t : ℕ → Fin n → K) (e : CostExpr K)
    (h' : CostHeap K) (i : ℕ) (hb : e.build N (leafHeap K N) = some (h', i)) (hS : totalWeight N e ≠ 0) :
    ∃ v0, ∀ x, Computes (fun j => distValue W (t j) x) h' i (v0 + totalWeight N e * distValue W (barycentre N t e) x) := by
  set m := barycentre N t e with hm
  refine ⟨∑ j ∈ range N, weightIn j e * distValue W (t j) m, fun x => ?_⟩
  have h1 := made_computes N (fun j => distValue W (t j) x) e h' i hb
  convert h1 using 1
  have h2 : (2 : K) ≠ 0 := two_ne_zero
  have hx : ∀ j, distValue W (t j) x = distValue W (t j) m + distValue W m x + ∑ a, (m a - t j a) * ∑ b, W a b * (x b - m b) := by
    intro j
    have : x - t j = (m - t j) + (x - m) := by abel
    unfold distValue
    rw [this, quadForm_add W hW]
    simp only [Pi.sub_apply]
    field_simp
  have hz : ∑ j ∈ range N, weightIn j e * ∑ a, (m a - t j a) * (fun a => ∑ b, W a b * (x b - m b)) a = 0 := by
    generalize (fun a => ∑ b, W a b * (x b - m b)) = y
    simp only [mul_sum]
    rw [sum_comm]
    refine sum_eq_zero fun a _ => ?_
    have e2 : ∑ j ∈ range N, weightIn j e * ((m a - t j a) * y a) =
        (totalWeight N e * m a - ∑ j ∈ range N, weightIn j e * t j a) * y a := by
      rw [totalWeight, sum_mul, ← sum_sub_distrib, sum_mul]
      exact sum_congr rfl fun j _ => by ring
    rw [e2, ← bary_mul N t e hS a]
    simp [hm]
  simp only [] at hz
  simp only [hx, smul_eq_mul, mul_add, sum_add_distrib, hz, ← sum_mul, add_zero]
  rfl

section ordered
variable [LinearOrder K] [IsStrictOrderedRing K]

/-- **C127, minimiser**: with positive total weight and positive definite `W` the weighted mean is the only minimiser. Single weights may
be negative. -/
theorem C127_minimiser (N : ℕ) (W : Fin n → Fin n → K) (hW : ∀ a b, W a b = W b a) (hpd : ∀ d, d ≠ 0 → 0 < quadForm W d)
    (t : ℕ → Fin n → K) (e : CostExpr K) (h' : CostHeap K) (i : ℕ) (hb : e.build N (leafHeap K N) = some (h', i))
    (hS : 0 < totalWeight N e) (x : Fin n → K) (hx : x ≠ barycentre N t e) (v vm : K)
    (hv : Computes (fun j => distValue W (t j) x) h' i v)
    (hvm : Computes (fun j => distValue W (t j) (barycentre N t e)) h' i vm) : vm < v := by
  obtain ⟨v0, h⟩ := C127_value N W hW t e h' i hb hS.ne'
  rw [computes_unique _ _ _ _ _ hv (h x), computes_unique _ _ _ _ _ hvm (h _)]
  have h1 : distValue W (barycentre N t e) (barycentre N t e) = 0 := by simp [distValue, quadForm]
  have h2 : 0 < distValue W (barycentre N t e) x := by
    have := hpd _ (sub_ne_zero.2 hx)
    unfold distValue
    linarith
  rw [h1]
  nlinarith [mul_pos hS h2]

/-- **C127, what the solver returns**: on a problem without constraints whose gradient is that of the expression, with identity weights
and positive total weight, SUCCESS is only reported at a point whose every coordinate is within `target_tol / total weight` of the
weighted mean: in every multiplier mode, from every starting point. -/
theorem C127_success {H : Type} (N : ℕ) (t : ℕ → Fin n → K) (e : CostExpr K) (h' : CostHeap K) (i : ℕ)
    (hb : e.build N (leafHeap K N) = some (h', i)) (hS : 0 < totalWeight N e) (P : Ctx (Fin n → K) K H n 0)
    (hP : ∀ x, Computes (fun j => distGrad (fun a b => if a = b then 1 else 0) (t j) x) h' i (P.grad x)) (S : Settings K)
    (st st' : St (Fin n → K) K H 0) (x0 : Fin n → K) (k : ℕ) (lams0 : Fin k → K) (h : solve P S st x0 k lams0 = .ok st')
    (hs : st'.converged = .success) (a : Fin n) : |st'.xOpt a - barycentre N t e a| < S.targetTol / totalWeight N e := by
  obtain ⟨lam, _, _, _, _, hd⟩ := C13_success_certifies_point P S st st' x0 k lams0 h hs
  have hg := computes_unique _ _ _ _ _ (hP st'.xOpt) (C127_gradient N _ t e h' i hb hS.ne' st'.xOpt).1
  have := hd a
  rw [hg] at this
  simp only [univ_eq_empty, sum_empty, add_zero, ite_mul, one_mul, zero_mul, sum_ite_eq, mem_univ, if_true, abs_mul,
    abs_of_pos hS] at this
  rw [lt_div_iff₀ hS]
  linarith

/-- **C127, what the solver returns, any weights**: the same with a weight matrix whose quadratic form is at least `c · Σ dₐ²`: the sum of the
distances of the coordinates to those of the weighted mean is at most `n · target_tol / (c · total weight)`. -/
theorem C127_success_weighted {H : Type} (N : ℕ) (W : Fin n → Fin n → K) (c : K) (hc : 0 < c) (hpd : ∀ d, c * ∑ a, d a ^ 2 ≤ quadForm W d)
    (t : ℕ → Fin n → K) (e : CostExpr K) (h' : CostHeap K) (i : ℕ) (hb : e.build N (leafHeap K N) = some (h', i))
    (hS : 0 < totalWeight N e) (P : Ctx (Fin n → K) K H n 0)
    (hP : ∀ x, Computes (fun j => distGrad W (t j) x) h' i (P.grad x)) (S : Settings K) (st st' : St (Fin n → K) K H 0)
    (x0 : Fin n → K) (k : ℕ) (lams0 : Fin k → K) (h : solve P S st x0 k lams0 = .ok st') (hs : st'.converged = .success) :
    ∑ a, |st'.xOpt a - barycentre N t e a| ≤ n * S.targetTol / (c * totalWeight N e) := by
  obtain ⟨lam, _, _, _, _, hd⟩ := C13_success_certifies_point P S st st' x0 k lams0 h hs
  have hg := computes_unique _ _ _ _ _ (hP st'.xOpt) (C127_gradient N W t e h' i hb hS.ne' st'.xOpt).1
  set d : Fin n → K := fun a => st'.xOpt a - barycentre N t e a with hdef
  have hgrad : ∀ a, |totalWeight N e * ∑ b, W a b * d b| < S.targetTol := fun a => by
    have := hd a
    rw [hg] at this
    simpa using this
  have h1 : totalWeight N e * quadForm W d ≤ S.targetTol * ∑ a, |d a| := by
    rw [quadForm, mul_sum, mul_sum]
    refine sum_le_sum fun a _ => ?_
    have e1 : totalWeight N e * (d a * ∑ b, W a b * d b) = d a * (totalWeight N e * ∑ b, W a b * d b) := by ring
    rw [e1]
    refine (le_abs_self _).trans ?_
    rw [abs_mul, mul_comm]
    exact mul_le_mul_of_nonneg_right (hgrad a).le (abs_nonneg _)
  have h2 : (∑ a, |d a|) ^ 2 ≤ n * ∑ a, d a ^ 2 := by
    have := sq_sum_le_card_mul_sum_sq (s := (univ : Finset (Fin n))) (f := fun a => |d a|)
    simpa [sq_abs] using this
  have hn : (0 : K) ≤ n := Nat.cast_nonneg n
  have hcs : 0 < c * totalWeight N e := mul_pos hc hS
  have h3 : c * totalWeight N e * (∑ a, |d a|) ^ 2 ≤ n * S.targetTol * ∑ a, |d a| := by
    have e2 : c * totalWeight N e * (∑ a, |d a|) ^ 2 ≤ c * totalWeight N e * (n * ∑ a, d a ^ 2) := mul_le_mul_of_nonneg_left h2 hcs.le
    have e3 : totalWeight N e * (c * ∑ a, d a ^ 2) ≤ totalWeight N e * quadForm W d := mul_le_mul_of_nonneg_left (hpd d) hS.le
    have e4 : (n : K) * (totalWeight N e * (c * ∑ a, d a ^ 2)) ≤ n * (S.targetTol * ∑ a, |d a|) :=
      mul_le_mul_of_nonneg_left (e3.trans h1) hn
    linarith
  rw [le_div_iff₀ hcs]
  rcases (sum_nonneg fun a _ => abs_nonneg (d a) : 0 ≤ ∑ a, |d a|).eq_or_lt with h0 | hpos
  · rw [← h0, zero_mul]
    rcases Nat.eq_zero_or_pos n with rfl | hn0
    · simp
    · exact mul_nonneg hn ((abs_nonneg _).trans (hgrad ⟨0, hn0⟩).le)
  · have : (c * totalWeight N e * ∑ a, |d a|) * ∑ a, |d a| ≤ n * S.targetTol * ∑ a, |d a| := by linarith [h3]
    linarith [le_of_mul_le_mul_right this hpos]

/-- **C127, factors that cancel**: when the factors add up to zero the gradient is the same everywhere, and SUCCESS is never reported
unless every coordinate of the weighted sum of the targets is below the tolerance. -/
theorem C127_cancel {H : Type} (N : ℕ) (t : ℕ → Fin n → K) (e : CostExpr K) (h' : CostHeap K) (i : ℕ)
    (hb : e.build N (leafHeap K N) = some (h', i)) (hS : totalWeight N e = 0) (P : Ctx (Fin n → K) K H n 0)
    (hP : ∀ x, Computes (fun j => distGrad (fun a b => if a = b then 1 else 0) (t j) x) h' i (P.grad x)) :
    (∀ x a, P.grad x a = -∑ j ∈ range N, weightIn j e * t j a) ∧
    ∀ (S : Settings K) (st st' : St (Fin n → K) K H 0) (x0 : Fin n → K) (k : ℕ) (lams0 : Fin k → K) (a : Fin n),
      S.targetTol ≤ |∑ j ∈ range N, weightIn j e * t j a| → solve P S st x0 k lams0 = .ok st' → st'.converged ≠ .success := by
  have hg : ∀ x a, P.grad x a = -∑ j ∈ range N, weightIn j e * t j a := by
    intro x a
    rw [computes_unique _ _ _ _ _ (hP x) (made_computes N _ e h' i hb)]
    simp only [Finset.sum_apply, Pi.smul_apply, smul_eq_mul, distGrad, ite_mul, one_mul, zero_mul, sum_ite_eq, mem_univ, if_true]
    simp only [mul_sub, sum_sub_distrib, ← sum_mul]
    rw [show ∑ j ∈ range N, weightIn j e = 0 from hS]
    ring
  refine ⟨hg, fun S st st' x0 k lams0 a ha h hs => ?_⟩
  obtain ⟨lam, _, _, _, _, hd⟩ := C13_success_certifies_point P S st st' x0 k lams0 h hs
  have := hd a
  rw [hg] at this
  simp only [univ_eq_empty, sum_empty, add_zero, abs_neg] at this
  exact absurd this (not_lt.2 ha)

end ordered

namespace Demo

/-- `2 * d0 + (d1 + d2)` -/
def baryExpr : CostExpr ℚ := .add (.smul 2 (.var 0)) (.add (.var 1) (.var 2))

/-- targets `0`, `1`, `7` on the line -/
def baryTargets : ℕ → Fin 1 → ℚ := fun j _ => if j = 0 then 0 else if j = 1 then 1 else 7

/-- minimise the sum of the distances without constraints; the step is Newton's -/
def baryProblem : Ctx (Fin 1 → ℚ) ℚ Unit 1 0 :=
  { eval := fun x => some (2 * (x 0) ^ 2 - 8 * x 0, Fin.elim0), grad := fun x _ => 4 * (x 0 - 2), jac := fun _ i => i.elim0,
    sets := StackedSet.ofLeaves fun i => i.elim0, neutral := fun _ => 0,
    proxVal := fun rho t x => rho * (x 0 - t 0) ^ 2 / 2, proxGrad := fun rho t x _ => rho * (x 0 - t 0),
    updHess := fun _ _ _ _ => (), enterInner := fun h => h,
    step := fun _ => .ok ⟨fun _ => 2, Fin.elim0, 0, Fin.elim0, Fin.elim0, ()⟩ }

end Demo

/-- The hypotheses are met: the expression builds, its total weight is `4`, and the weighted mean is `(2·0 + 1 + 7) / 4 = 2`. -/
example : (∃ h' i, Demo.baryExpr.build 3 (leafHeap ℚ 3) = some (h', i)) ∧ totalWeight 3 Demo.baryExpr = 4 ∧
    barycentre 3 Demo.baryTargets Demo.baryExpr 0 = 2 := by
  refine ⟨⟨_, _, rfl⟩, ?_, ?_⟩
  · simp [totalWeight, Demo.baryExpr, weightIn, sum_range_succ]; norm_num
  · simp [barycentre, totalWeight, Demo.baryExpr, weightIn, sum_range_succ, Demo.baryTargets]; norm_num

/-- The identity has a quadratic form of at least `1 · Σ dₐ²`, so `C127_success_weighted` applies to the run below with `c = 1`. -/
example (d : Fin 1 → ℚ) : (1 : ℚ) * ∑ a, d a ^ 2 ≤ quadForm (fun a b => if a = b then 1 else 0) d := by
  simp [quadForm, sq]

/-- ... and a run from `10` that returns SUCCESS at the weighted mean. -/
example : ∃ st', solve Demo.baryProblem (Demo.settings (1 / 100) (1 / 100) .newton 10 10)
    (setup Demo.baryProblem () (St.fresh Demo.baryProblem (Demo.settings (1 / 100) (1 / 100) .newton 10 10) ())) (fun _ => 10) 0 Fin.elim0 =
      .ok st' ∧ st'.converged = .success ∧ st'.xOpt 0 = 2 := by
  obtain ⟨st', h, hp⟩ := checkSolve_sound Demo.baryProblem (Demo.settings (1 / 100) (1 / 100) .newton 10 10) 20
    (setup Demo.baryProblem () (St.fresh Demo.baryProblem (Demo.settings (1 / 100) (1 / 100) .newton 10 10) ())) (fun _ => 10) 0 Fin.elim0
    (fun s => decide (s.converged = .success ∧ s.xOpt 0 = 2)) (by decide +kernel)
  exact ⟨st', h, by simpa using hp⟩

/-- `d0 - d1`, written `d0 + (-(1 * d1))`, with targets `0` and `1`: the factors cancel, the hypotheses of `C127_cancel` are met, and with
tolerance `1/100` the weighted sum of the targets, `-1`, excludes SUCCESS. -/
example : (∃ h' i, (CostExpr.add (.var 0) (.neg (.smul 1 (.var 1))) : CostExpr ℚ).build 2 (leafHeap ℚ 2) = some (h', i)) ∧
    totalWeight 2 (.add (.var 0) (.neg (.smul 1 (.var 1))) : CostExpr ℚ) = 0 ∧
    (1 / 100 : ℚ) ≤ |∑ j ∈ range 2, weightIn j (.add (.var 0) (.neg (.smul 1 (.var 1))) : CostExpr ℚ) * Demo.baryTargets j 0| := by
  refine ⟨⟨_, _, rfl⟩, ?_, ?_⟩
  · simp [totalWeight, weightIn, sum_range_succ]
  · simp [weightIn, sum_range_succ, Demo.baryTargets]; norm_num

namespace Demo

/-- the same distances with negative factors, `-(2 d0 + d1 + d2)`, unbounded below; the step stays where it is -/
def negBaryProblem : Ctx (Fin 1 → ℚ) ℚ Unit 1 0 :=
  { baryProblem with
    eval := fun x => some (-2 * (x 0) ^ 2 + 8 * x 0, Fin.elim0), grad := fun x _ => -4 * (x 0 - 2)
    step := fun i => .ok ⟨i.x, Fin.elim0, 0, Fin.elim0, Fin.elim0, ()⟩ }

end Demo

/-- **What a user may expect and does not get, negative total weight**: started at the weighted mean, which is then the point of the
*largest* value, the solver reports SUCCESS without a step, although the cost is unbounded below. -/
theorem C127_negative_false : totalWeight 3 (.neg Demo.baryExpr) = -4 ∧
    (∃ h' i, (CostExpr.neg Demo.baryExpr).build 3 (leafHeap ℚ 3) = some (h', i) ∧
      ∀ x, Computes (fun j => distGrad (fun a b => if a = b then 1 else 0) (Demo.baryTargets j) x) h' i (Demo.negBaryProblem.grad x)) ∧
    (∃ st', solve Demo.negBaryProblem (Demo.settings (1 / 100) (1 / 100) .newton 10 10)
      (setup Demo.negBaryProblem () (St.fresh Demo.negBaryProblem (Demo.settings (1 / 100) (1 / 100) .newton 10 10) ())) (fun _ => 2) 0
        Fin.elim0 = .ok st' ∧ st'.converged = .success ∧ st'.xOpt 0 = 2) ∧
    (∀ x v v2 c c2, Demo.negBaryProblem.eval x = some (v, c) → Demo.negBaryProblem.eval (fun _ => 2) = some (v2, c2) → v ≤ v2) ∧
    ∀ B, ∃ x v c, Demo.negBaryProblem.eval x = some (v, c) ∧ v < B := by
  have h4 : totalWeight 3 (.neg Demo.baryExpr) = -4 := by
    simp [totalWeight, Demo.baryExpr, weightIn, sum_range_succ]; norm_num
  refine ⟨h4, ⟨_, _, rfl, fun x => ?_⟩, ?_, ?_, ?_⟩
  · have hm : ∀ b, barycentre 3 Demo.baryTargets (.neg Demo.baryExpr) b = 2 := fun b => by
      simp [barycentre, totalWeight, Demo.baryExpr, weightIn, sum_range_succ, Demo.baryTargets]; norm_num
    convert (C127_gradient 3 (fun a b => if a = b then 1 else 0) Demo.baryTargets (.neg Demo.baryExpr) _ _ rfl (by rw [h4]; norm_num) x).1
      using 1
    funext a
    rw [h4]
    simp [Demo.negBaryProblem, hm, Subsingleton.elim a 0]
  · obtain ⟨st', h, hp⟩ := checkSolve_sound Demo.negBaryProblem (Demo.settings (1 / 100) (1 / 100) .newton 10 10) 20
      (setup Demo.negBaryProblem () (St.fresh Demo.negBaryProblem (Demo.settings (1 / 100) (1 / 100) .newton 10 10) ())) (fun _ => 2) 0
        Fin.elim0 (fun s => decide (s.converged = .success ∧ s.xOpt 0 = 2)) (by decide +kernel)
    exact ⟨st', h, by simpa using hp⟩
  · intro x v v2 c c2 h1 h2
    simp only [Demo.negBaryProblem, Option.some.injEq, Prod.mk.injEq] at h1 h2
    rw [← h1.1, ← h2.1]
    nlinarith [sq_nonneg (x 0 - 2)]
  · intro B
    refine ⟨fun _ => |B| + 5, _, _, rfl, ?_⟩
    nlinarith [abs_nonneg B, neg_abs_le B]

/-- the gradient of the demo problem is that of the expression -/
example (h' : CostHeap ℚ) (i : ℕ) (hb : Demo.baryExpr.build 3 (leafHeap ℚ 3) = some (h', i)) (x : Fin 1 → ℚ) :
    Computes (fun j => distGrad (fun a b => if a = b then 1 else 0) (Demo.baryTargets j) x) h' i (Demo.baryProblem.grad x) := by
  have h4 : totalWeight 3 Demo.baryExpr = 4 := by
    simp [totalWeight, Demo.baryExpr, weightIn, sum_range_succ]; norm_num
  have hm : ∀ b, barycentre 3 Demo.baryTargets Demo.baryExpr b = 2 := fun b => by
    simp [barycentre, totalWeight, Demo.baryExpr, weightIn, sum_range_succ, Demo.baryTargets]; norm_num
  convert (C127_gradient 3 (fun a b => if a = b then 1 else 0) Demo.baryTargets Demo.baryExpr h' i hb (by rw [h4]; norm_num) x).1 using 1
  funext a
  rw [h4]
  simp [Demo.baryProblem, hm, Subsingleton.elim a 0]

end ProxNLP
