import Verif.Lemmas.QpOuter

/-!
C80: convergence on strictly convex quadratic programs with independent equality constraints.  The statements are about
`solve` itself (`Model.Solver`) with the concrete step of `Model.Step` (Newton direction through one of the library's linear
solvers, regularisation loop, iterative refinement, line search): no part of a step is assumed.
-/

set_option linter.unusedSectionVars false
namespace ProxNLP

open Spec

variable {K : Type} {n m : ℕ} [Field K] [LinearOrder K] [IsStrictOrderedRing K]

/-- the quadratic programs of C80 have a solution of the optimality conditions -/
theorem C80_solution_exists (q : Qp K n m) (h : K) (hc : q.StronglyConvex h) (B : Fin n → Fin m → K) (hB : q.Independent B) :
    ∃ xs ls, q.Optimal xs ls := by
  set A := kktMatrix q.H q.A (fun _ => (0 : K)) with hA
  have hrow1 : ∀ (v : Fin n ⊕ Fin m → K) j, A.mulVec v (.inl j) = ∑ k, q.H j k * v (.inl k) + ∑ i, q.A i j * v (.inr i) := by
    intro v j
    simp [hA, kktMatrix, Matrix.mulVec, dotProduct, Fintype.sum_sum_type]
  have hrow2 : ∀ (v : Fin n ⊕ Fin m → K) i, A.mulVec v (.inr i) = ∑ j, q.A i j * v (.inl j) := by
    intro v i
    simp [hA, kktMatrix, Matrix.mulVec, dotProduct, Fintype.sum_sum_type]
  have hinj : Function.Injective A.mulVec := by
    intro v w hvw
    rw [← sub_eq_zero, ← Matrix.mulVec_sub] at hvw
    set u := v - w with hu
    have h1 : ∀ j, ∑ k, q.H j k * u (.inl k) + ∑ i, q.A i j * u (.inr i) = 0 := fun j => by rw [← hrow1, hvw]; rfl
    have h2 : ∀ i, ∑ j, q.A i j * u (.inl j) = 0 := fun i => by rw [← hrow2, hvw]; rfl
    have h3 : ∑ j, u (.inl j) * ∑ k, q.H j k * u (.inl k) = 0 := by
      have s1 : ∑ j, u (.inl j) * ∑ k, q.H j k * u (.inl k) = ∑ j, u (.inl j) * -∑ i, q.A i j * u (.inr i) :=
        Finset.sum_congr rfl fun j _ => by rw [eq_neg_of_add_eq_zero_left (h1 j)]
      rw [s1]
      simp only [mul_neg, Finset.sum_neg_distrib, Finset.mul_sum]
      rw [Finset.sum_comm, neg_eq_zero]
      refine Finset.sum_eq_zero fun i _ => ?_
      have : ∑ j, u (.inl j) * (q.A i j * u (.inr i)) = u (.inr i) * ∑ j, q.A i j * u (.inl j) := by
        rw [Finset.mul_sum]
        exact Finset.sum_congr rfl fun j _ => by ring
      rw [this, h2, mul_zero]
    have h4 : ∀ j, u (.inl j) = 0 := by
      have hb := hc.bound fun j => u (.inl j)
      rw [h3] at hb
      have hz : ∑ j, u (.inl j) ^ 2 = 0 :=
        le_antisymm (by
          by_contra hcon
          have := mul_pos hc.pos (not_le.1 hcon)
          linarith) (Finset.sum_nonneg fun _ _ => sq_nonneg _)
      intro j
      exact pow_eq_zero_iff (two_ne_zero) |>.1 ((Finset.sum_eq_zero_iff_of_nonneg fun _ _ => sq_nonneg _).1 hz j (Finset.mem_univ _))
    have h5 : ∀ i, u (.inr i) = 0 := by
      intro i
      have h1' : ∀ j, ∑ i, q.A i j * u (.inr i) = 0 := by
        intro j
        have := h1 j
        simpa [h4] using this
      have s2 : ∑ j, B j i * ∑ i', q.A i' j * u (.inr i') = u (.inr i) := by
        simp only [Finset.mul_sum]
        rw [Finset.sum_comm]
        have : ∀ i', ∑ j, B j i * (q.A i' j * u (.inr i')) = (if i' = i then 1 else 0) * u (.inr i') := by
          intro i'
          rw [← hB i' i, Finset.sum_mul]
          exact Finset.sum_congr rfl fun j _ => by ring
        simp only [this, ite_mul, one_mul, zero_mul, Finset.sum_ite_eq', Finset.mem_univ, if_true]
      rw [← s2]
      exact Finset.sum_eq_zero fun j _ => by rw [h1' j, mul_zero]
    have hu0 : u = 0 := by
      funext a
      rcases a with j | i
      · exact h4 j
      · exact h5 i
    exact sub_eq_zero.1 (by rw [← hu]; exact hu0)
  have hsurj : Function.Surjective A.mulVec := by
    rw [Matrix.mulVec_surjective_iff_isUnit, ← Matrix.mulVec_injective_iff_isUnit]
    exact hinj
  obtain ⟨v, hv⟩ := hsurj (Sum.elim (fun j => -q.g j) q.b)
  refine ⟨fun j => v (.inl j), fun i => v (.inr i), fun j => ?_, fun i => ?_⟩
  · have := congrFun hv (.inl j)
    rw [hrow1] at this
    simp only [Sum.elim_inl] at this
    simp only [Qp.lagrangian, Qp.gradient]
    linear_combination this
  · have := congrFun hv (.inr i)
    rw [hrow2] at this
    simp only [Sum.elim_inr] at this
    simp only [Qp.residual]
    linear_combination this

/-- a solution of the optimality conditions is the strict minimiser of the cost on the feasible set -/
theorem C80_solution_minimises (q : Qp K n m) (h : K) (hc : q.StronglyConvex h) (xs : Fin n → K) (ls : Fin m → K)
    (hopt : q.Optimal xs ls) (x : Fin n → K) (hx : ∀ i, q.residual x i = 0) (hne : x ≠ xs) : q.cost xs < q.cost x := by
  set d : Fin n → K := x - xs with hd
  have hxd : x = xs + d := by rw [hd]; abel
  have hAd : ∀ i, ∑ j, q.A i j * d j = 0 := by
    intro i
    have := q.residual_add xs d i
    rw [← hxd, hx, hopt.2 i] at this
    linear_combination -this
  have hg : ∑ j, q.gradient xs j * d j = 0 := by
    have h1 : ∀ j, q.gradient xs j = -∑ i, q.A i j * ls i := by
      intro j
      have := hopt.1 j
      simp only [Qp.lagrangian] at this
      linear_combination this
    simp only [h1, neg_mul, Finset.sum_neg_distrib, Finset.sum_mul]
    rw [Finset.sum_comm, neg_eq_zero]
    refine Finset.sum_eq_zero fun i _ => ?_
    have : ∑ j, q.A i j * ls i * d j = ls i * ∑ j, q.A i j * d j := by
      rw [Finset.mul_sum]
      exact Finset.sum_congr rfl fun j _ => by ring
    rw [this, hAd, mul_zero]
  have hc' := q.cost_add hc.symm xs d
  rw [← hxd, hg] at hc'
  have hd0 : d ≠ 0 := fun h0 => hne (by rw [hxd, h0, add_zero])
  have hpos := hc.posDef d hd0
  have hq : quad q.H d = ∑ j, d j * ∑ k, q.H j k * d k := by
    unfold quad
    refine Finset.sum_congr rfl fun j _ => ?_
    rw [Finset.mul_sum]
  rw [hq] at hpos
  linarith

/-- the signatures reported by the library's solvers have entries in {-1, 0, 1} -/
theorem Spec.LibraryBackend.entries {B : Backend K n m} (hB : LibraryBackend B) (A : Matrix (Fin n ⊕ Fin m) (Fin n ⊕ Fin m) K) :
    ∀ s ∈ B.sig A, s = 1 ∨ s = -1 ∨ s = 0 := by
  intro s hs
  cases hB with
  | bunchKaufman alpha h0 h1 o =>
    simp only [bkBackend] at hs
    split at hs
    · exact bkSignature_entries _ _ _ hs
    · simp at hs
  | dense o =>
    obtain ⟨k, -, rfl⟩ := List.mem_map.1 hs
    exact cwiseSign_entries _
  | block g primal dual o fuel hne hfuel ho =>
    obtain ⟨k, -, rfl⟩ := List.mem_map.1 hs
    exact cwiseSign_entries _
  | proxsuite fac hfac =>
    obtain ⟨k, -, rfl⟩ := List.mem_map.1 hs
    exact cwiseSign_entries _

/-- `solve` without its checks -/
theorem solve_outer {X H : Type} (P : Ctx X K H n m) (S : Settings K) (st st' : St X K H m) (x0 : X) (k : ℕ) (l : Fin k → K)
    (h : solve P S st x0 k l = .ok st') :
    ∃ stf, outerLoop P S (initSolve S st x0 k l) = .ok stf ∧ st' = invokeCallbacks stf := by
  obtain ⟨_, stf, hf, rfl⟩ := solve_ok P S st x0 k l st' h
  exact ⟨stf, hf, rfl⟩

theorem initSolve_lams {X H : Type} (S : Settings K) (st : St X K H m) (x0 : X) (l : Fin m → K) :
    (initSolve S st x0 m l).lamsOpt = l ∧ (initSolve S st x0 m l).lamsPrev = l ∧ (initSolve S st x0 m l).xOpt = x0 := by
  simp [initSolve, updateToleranceFailure, tolerancePostUpdate, setProxParameter, setPenalty]

/-- **C80**: convergence.  For a strictly convex quadratic program with independent equality constraints, settings as in
`ConvergentSettings` and one of the library's linear solvers there is a bound `N` on iterations such that `solve` with budgets of at least
`N`, from any start, any initial multipliers within `R / 2` of the optimal ones, and after any history, returns without an
exception a point and multipliers satisfying the optimality conditions up to `target_tol`; the flag is SUCCESS unless a residual
equals `target_tol` exactly. -/
theorem C80_converges [Archimedean K] (q : Qp K n m) (h : K) (hc : q.StronglyConvex h) (B : Fin n → Fin m → K)
    (hB : q.Independent B) (xs : Fin n → K) (ls : Fin m → K) (hopt : q.Optimal xs ls) (S : Settings K) (R : K) (hR : 0 ≤ R)
    (hS : ConvergentSettings S R) (p : InertiaParams K) (hp : GoodParams p) (hp0 : p.deltaInit = 0) (hpm : 0 ≤ p.deltaMax)
    (lso : LSOptions K) (hls : GoodLS lso) (hc1 : lso.armijoC1 ≤ 1 / 2) :
    ∃ N : ℕ, ∀ C : StepCfg (Fin n → K) K n m, IsQp C q → C.inertia = p → C.ls = lso → N ≤ C.fuel → LibraryBackend C.backend →
      ∀ maxIters maxAlIters : ℕ, N ≤ maxIters → N ≤ maxAlIters →
      ∀ (st : St (Fin n → K) K (Hidden K n m) m) (x0 : Fin n → K) (lams0 : Fin m → K), st.hasSetup = true →
        4 * ∑ i, (lams0 i - ls i) ^ 2 ≤ R ^ 2 →
        ∃ st', solve (concreteCtx C) { S with maxIters := maxIters, maxAlIters := maxAlIters } st x0 m lams0 = .ok st' ∧
          q.Approx S.targetTol st'.xOpt st'.lamsOpt ∧
          (st'.converged = .success ∨ (∃ i, |q.residual st'.xOpt i| = S.targetTol) ∨
            ∃ j, |q.lagrangian st'.xOpt st'.lamsOpt j| = S.targetTol) := by
  have hI : 0 < S.muInit := lt_of_lt_of_le hS.lower hS.lower_le
  have hT : 0 < S.targetTol := lt_of_le_of_lt hS.tolMin hS.target
  obtain ⟨th, th0, th1, hcon⟩ := qp_contract q h hc B hB xs ls hopt S.muInit hI
  obtain ⟨M, hM⟩ := hS.start
  obtain ⟨r, hr1, hr⟩ := hS.shrink
  have hr0 : 0 ≤ r := (hr S.muLower le_rfl hS.lower_le).1.trans (hr S.muLower le_rfl hS.lower_le).2.1
  obtain ⟨N1, hN1⟩ := C72_solve_returns (n := n) (m := m) p hp (by rw [hp0]; exact hpm) lso hls
  -- constants
  set ep : K := S.targetTol ^ 2 / (8 * S.muInit ^ 2) with hep
  have hep0 : 0 < ep := by positivity
  have hsmall : S.muInit ^ 2 * (4 * ep) < S.targetTol ^ 2 := by
    rw [hep]
    have : S.muInit ^ 2 * (4 * (S.targetTol ^ 2 / (8 * S.muInit ^ 2))) = S.targetTol ^ 2 / 2 := by
      field_simp
      ring
    rw [this]
    have : 0 < S.targetTol ^ 2 := by positivity
    linarith
  have key : ∀ (a b c : K), 0 ≤ a → a < 1 → 0 < c → ∃ k : ℕ, a ^ k * b ≤ c := by
    intro a b c ha ha1 hc0
    by_cases hb : b ≤ 0
    · exact ⟨0, by simpa using hb.trans hc0.le⟩
    · have hb := not_le.1 hb
      obtain ⟨k, hk⟩ := exists_pow_lt_of_lt_one (div_pos hc0 hb) ha1
      exact ⟨k, by rw [lt_div_iff₀ hb] at hk; exact hk.le⟩
  obtain ⟨F, hF⟩ := key S.muUpdateFactor S.muInit S.muLower hS.factor_nonneg hS.factor_lt hS.lower
  obtain ⟨Sn, hSn⟩ := key r (max M S.innerTolMin) S.targetTol hr0 hr1 hT
  obtain ⟨J, hJ⟩ := key th (R ^ 2 / 4) ep th0 th1 hep0
  refine ⟨max N1 (J * (F + Sn + 2) + F + 2 + Sn + 2), fun C hq hCp hCl hfuel hBk maxIters maxAl hmi hma st x0 lams0 hset hd => ?_⟩
  set S' : Settings K := { S with maxIters := maxIters, maxAlIters := maxAl } with hS'
  obtain ⟨st', hsol⟩ := hN1 C hCp hCl (le_trans (le_max_left _ _) hfuel) (fun A => hBk.entries A) (by intro x; rw [hq.eval]; simp)
    S' st x0 m lams0 hset
  refine ⟨st', hsol, ?_⟩
  have hSc : ConvergentSettings S' R :=
    { newton := hS.newton, beta := hS.beta, rho := hS.rho, target := hS.target, tolMin := hS.tolMin, lower := hS.lower
      lower_le := hS.lower_le, factor_nonneg := hS.factor_nonneg, factor_lt := hS.factor_lt, start := hS.start, shrink := hS.shrink
      room := hS.room }
  have hD : QpRates q S' ls R th r M ep (R ^ 2 / 4) F Sn :=
    { settings := hSc, th0 := th0, th1 := th1, contract := hcon, small := hsmall, start := hM, r1 := hr1, shrink := hr, hF := hF
      hSn := hSn, R0 := hR, hR := by linarith }
  have hC : QpCfg C q h :=
    { isQp := hq, convex := hc, params := by rw [hCp]; exact hp, deltaInit := by rw [hCp]; exact hp0
      deltaMax := by rw [hCp]; exact hpm, exactOn := fun d hd => C79_exact hBk q.H hc.symm hc.posDef q.A d hd
      alphaMin := by rw [hCl]; exact hls.amin1, armijo := by rw [hCl]; exact hc1 }
  obtain ⟨stf, hf, rfl⟩ := solve_outer _ _ _ _ _ _ _ hsol
  obtain ⟨m1, m2, m3⟩ := hM S.muInit hS.lower_le le_rfl
  obtain ⟨i1, i2, -⟩ := initSolve_lams S' st x0 lams0
  have i3 : (initSolve S' st x0 m lams0).mu = S.muInit := by simp [initSolve, updateToleranceFailure, tolerancePostUpdate, setProxParameter, setPenalty, hS']
  have i4 : (initSolve S' st x0 m lams0).setMu = S.muInit := by simp [initSolve, updateToleranceFailure, tolerancePostUpdate, setProxParameter, setPenalty, hS']
  have i5 : (initSolve S' st x0 m lams0).rho = 0 := by
    simp [initSolve, updateToleranceFailure, tolerancePostUpdate, setProxParameter, setPenalty, hS', hS.rho]
  have i6 : (initSolve S' st x0 m lams0).innerTol = max (S.innerTol0 * S.pow S.muInit S.dualAlpha) S.innerTolMin := by
    simp [initSolve, updateToleranceFailure, tolerancePostUpdate, setProxParameter, setPenalty, hS']
  have i7 : (initSolve S' st x0 m lams0).primTol = max (S.primTol0 * S.pow S.muInit S.primAlpha) S.targetTol := by
    simp [initSolve, updateToleranceFailure, tolerancePostUpdate, setProxParameter, setPenalty, hS']
  have hdist : errSq lams0 ls ≤ R ^ 2 / 4 := by
    unfold errSq
    linarith
  have hst : QpState S' ls M (R ^ 2 / 4) (initSolve S' st x0 m lams0) :=
    { rho := i5, setMu := by rw [i4, i3], lo := by rw [i3]; exact hS.lower_le, hi := by rw [i3]
      tol0 := by rw [i6]; exact le_max_of_le_right hS.tolMin
      tols := by rw [i6, i7]; exact max_lt (lt_max_of_lt_left m2) (lt_max_of_lt_right hS.target)
      tolM := by rw [i6]; exact max_le_max_right _ m3
      err := by rw [i2]; exact hdist }
  have hrank : QpRank q S' ls th r ep F Sn (J * (F + Sn + 2) + F + 2 + Sn) (initSolve S' st x0 m lams0) :=
    Or.inl ⟨J, Sn, { same := by rw [i1, i2], err := ?_, tol := ?_ }, rfl⟩
  · have hfin := qp_outer C h hC hD _ _ stf hst hrank
      (by show (0 : ℕ) + _ < maxAl; have := le_trans (le_max_right _ _) hma; omega)
      (by show (0 : ℕ) + _ + 1 < maxIters; have := le_trans (le_max_right _ _) hmi; omega) hf
    have hfin' : (stf.converged = .success ∧ qpOuter q stf.xOpt stf.lamsOpt < S.targetTol) ∨
      qpOuter q stf.xOpt stf.lamsOpt = S.targetTol := hfin
    have hle : qpOuter q stf.xOpt stf.lamsOpt ≤ S.targetTol := by
      rcases hfin' with ⟨-, h⟩ | h
      · exact h.le
      · exact h.le
    have ha1 : ∀ i, |q.residual stf.xOpt i| ≤ S.targetTol := fun i => (abs_le_inftyNorm _ i).trans ((le_max_left _ _).trans hle)
    have ha2 : ∀ j, |q.lagrangian stf.xOpt stf.lamsOpt j| ≤ S.targetTol := fun j =>
      (abs_le_inftyNorm _ j).trans ((le_max_right _ _).trans hle)
    refine ⟨⟨ha1, ha2⟩, ?_⟩
    rcases hfin' with ⟨h, -⟩ | heq
    · exact Or.inl h
    · right
      show (∃ i, |q.residual stf.xOpt i| = S.targetTol) ∨ ∃ j, |q.lagrangian stf.xOpt stf.lamsOpt j| = S.targetTol
      by_contra hcon
      rw [not_or, not_exists, not_exists] at hcon
      refine absurd heq (ne_of_lt ?_)
      exact max_lt ((inftyNorm_lt_iff _ _).2 ⟨hT, fun i => lt_of_le_of_ne (ha1 i) (hcon.1 i)⟩)
        ((inftyNorm_lt_iff _ _).2 ⟨hT, fun j => lt_of_le_of_ne (ha2 j) (hcon.2 j)⟩)
  · rw [i2]
    exact (mul_le_mul_of_nonneg_left hdist (pow_nonneg th0 J)).trans hJ
  · rw [i6]
    exact (mul_le_mul_of_nonneg_left (max_le_max_right _ m3) (pow_nonneg hr0 Sn)).trans hSn

/-! ### concrete cases -/

namespace Demo

/-- a quadratic program handed to the solver -/
def qpCfg (q : Qp ℚ n m) (kkt : KktSys) (B : Backend ℚ n m) (fuel : ℕ) : StepCfg (Fin n → ℚ) ℚ n m where
  eval x := some (q.cost x, q.residual x)
  grad := q.gradient
  jac _ := q.A
  objHess _ := q.H
  cstrVhp _ _ := [(false, 0)]
  sets := StackedSet.ofLeaves fun _ => (.equality, 0)
  neutral := 0
  coords x := x
  integrate x d := x + d
  proxVal rho t x := rho / 2 * ∑ j, (x j - t j) ^ 2
  proxGrad rho t x := fun j => rho * (x j - t j)
  proxHess rho _ _ := fun i j => if i = j then rho else 0
  approx := .exact
  kkt := kkt
  beta := 1 / 2
  inertia := Demo.inertiaDefaults
  refineTol := 1 / 10000000000
  refineSteps := 5
  ls := Demo.lsOpts .bisection (1 / 10000) (1 / 1000000)
  backend := B
  sqrt := id
  sing := Demo.singNaN
  fuel := fuel

/-- a solver that has been set up -/
def qpReady (C : StepCfg (Fin n → ℚ) ℚ n m) (S : Settings ℚ) : St (Fin n → ℚ) ℚ (Hidden ℚ n m) m :=
  setup (concreteCtx C) (hidden0 C) (St.fresh (concreteCtx C) S (hidden0 C))

theorem qpCfg_isQp (q : Qp ℚ n m) (kkt : KktSys) (B : Backend ℚ n m) (fuel : ℕ) : IsQp (qpCfg q kkt B fuel) q where
  eval _ := rfl
  grad _ := rfl
  jac _ := rfl
  hess _ := rfl
  vhp := by intro x l p hp; simp only [qpCfg, List.mem_singleton] at hp; rw [hp]
  integrate _ _ := rfl
  sets := rfl
  approx := Or.inl rfl
  beta := rfl
  prox := by intro t x; simp [qpCfg]

theorem inertiaDefaults_good : GoodParams Demo.inertiaDefaults := by constructor <;> norm_num [Demo.inertiaDefaults]

theorem lsOpts_good : GoodLS (Demo.lsOpts .bisection (1 / 10000) (1 / 1000000)) := by constructor <;> norm_num [Demo.lsOpts]

/-- minimise `x² + xy + 3y²/2 - x` subject to `x + y = 1` -/
def qp2 : Qp ℚ 2 1 where
  H := Matrix.of ![![2, 1], ![1, 3]]
  g := ![-1, 0]
  A := ![![1, 1]]
  b := ![1]

theorem qp2_convex : qp2.StronglyConvex 1 where
  pos := by norm_num
  symm := by decide +kernel
  bound := by
    intro v
    simp [qp2, Fin.sum_univ_two]
    nlinarith [sq_nonneg (v 0 + v 1), sq_nonneg (v 1)]

theorem qp2_independent : qp2.Independent ![![1], ![0]] := by
  show ∀ i i' : Fin 1, _
  decide +kernel

theorem qp2_optimal : qp2.Optimal ![1, 0] ![-1] := by
  constructor <;> decide +kernel

/-- the default settings, with exponents for which powers are rational -/
def qpSettings : Settings ℚ :=
  { targetTol := 1 / 1000000, muInit := 1 / 100, rhoInit := 0, muLower := 1 / 1000000000, muUpper := 1, innerTol0 := 1 / 10,
    primTol0 := 1, innerTolMin := 1 / 1000000000, pdalBeta := 1 / 2, primAlpha := 0, primBeta := 1,
    dualAlpha := 1, dualBeta := 1, muUpdateFactor := 1 / 100, rhoUpdateFactor := 1, maxIters := 100,
    maxAlIters := 100, mode := .newton, kkt := .classic, pow := fun x e => if e = 0 then 1 else x }

theorem qpSettings_convergent : ConvergentSettings qpSettings 100000000 where
  newton := rfl
  beta := rfl
  rho := rfl
  target := by norm_num [qpSettings]
  tolMin := by norm_num [qpSettings]
  lower := by norm_num [qpSettings]
  lower_le := by norm_num [qpSettings]
  factor_nonneg := by norm_num [qpSettings]
  factor_lt := by norm_num [qpSettings]
  start := ⟨1, fun mu h1 h2 => by
    simp only [qpSettings] at h1 h2 ⊢
    norm_num
    refine ⟨by linarith, by linarith, by linarith⟩⟩
  shrink := ⟨1 / 2, by norm_num, fun mu h1 h2 => by
    simp only [qpSettings] at h1 h2 ⊢
    norm_num
    refine ⟨by linarith, by linarith, by linarith⟩⟩
  room := by norm_num [qpSettings]

/-- non-vacuity of C80: a program with two variables and one constraint, each linear solver -/
example (kkt : KktSys) (B : Backend ℚ 2 1) (hB : LibraryBackend B) : ∃ N : ℕ, ∀ x0 : Fin 2 → ℚ, ∃ st',
    solve (concreteCtx (qpCfg qp2 kkt B N)) { qpSettings with maxIters := N, maxAlIters := N } (qpReady (qpCfg qp2 kkt B N) qpSettings)
      x0 1 (fun _ => 0) = .ok st' ∧
      qp2.Approx (1 / 1000000) st'.xOpt st'.lamsOpt := by
  obtain ⟨N, hN⟩ := C80_converges qp2 1 qp2_convex _ qp2_independent _ _ qp2_optimal qpSettings 100000000 (by norm_num)
    qpSettings_convergent inertiaDefaults inertiaDefaults_good rfl (by norm_num [inertiaDefaults]) _ lsOpts_good
    (by norm_num [lsOpts])
  refine ⟨N, fun x0 => ?_⟩
  obtain ⟨st', h1, h2, -⟩ := hN (qpCfg qp2 kkt B N) (qpCfg_isQp _ _ _ _) rfl rfl le_rfl hB N N le_rfl le_rfl
    (qpReady (qpCfg qp2 kkt B N) qpSettings) x0 (fun _ => 0) rfl (by norm_num)
  exact ⟨st', h1, h2⟩

/-- a run of the whole solver on this program with the dense LDLT: the returned point is within the tolerance -/
example : ∃ st', solve (concreteCtx (qpCfg qp2 .primalDual (denseBackend 0 (DenseObj.init 3)) 40)) qpSettings
      (qpReady (qpCfg qp2 .primalDual (denseBackend 0 (DenseObj.init 3)) 40) qpSettings) ![5, -3] 1 ![0] = .ok st' ∧
      st'.converged = .success ∧ 2 ≤ st'.numIters ∧ |st'.xOpt 0 - 1| < 1 / 100000 := by
  obtain ⟨a, ha, hpa⟩ := checkSolve_sound (concreteCtx (qpCfg qp2 .primalDual (denseBackend 0 (DenseObj.init 3)) 40)) qpSettings 20
    (qpReady (qpCfg qp2 .primalDual (denseBackend 0 (DenseObj.init 3)) 40) qpSettings) ![5, -3] 1 ![0]
    (fun s => decide (s.converged = .success ∧ 2 ≤ s.numIters ∧ |s.xOpt 0 - 1| < 1 / 100000)) (by decide +kernel)
  exact ⟨a, ha, of_decide_eq_true hpa⟩

/-- minimise `x²/2` subject to `x = b` -/
def qp1 (b : ℚ) : Qp ℚ 1 1 where
  H := Matrix.of ![![1]]
  g := ![0]
  A := ![![1]]
  b := ![b]

theorem qp1_convex (b : ℚ) : (qp1 b).StronglyConvex 1 where
  pos := by norm_num
  symm := by show (Matrix.of ![![(1 : ℚ)]]).IsSymm; decide +kernel
  bound := by
    intro v
    simp only [qp1, Fin.sum_univ_one, Matrix.of_apply, Matrix.cons_val_fin_one]
    nlinarith [sq_nonneg (v 0)]

theorem qp1_independent (b : ℚ) : (qp1 b).Independent ![![1]] := by
  show ∀ i i' : Fin 1, ∑ j : Fin 1, (![![(1 : ℚ)]] : Fin 1 → Fin 1 → ℚ) i j * (![![1]] : Fin 1 → Fin 1 → ℚ) j i' = if i = i' then 1 else 0
  decide +kernel

theorem qp1_optimal (b : ℚ) : (qp1 b).Optimal ![b] ![-b] := by
  constructor <;> intro i <;> simp [Qp.lagrangian, Qp.gradient, Qp.residual, qp1]

theorem qp1_cfg (b : ℚ) (kkt : KktSys) (B : Backend ℚ 1 1) (hB : LibraryBackend B) (fuel : ℕ) : QpCfg (qpCfg (qp1 b) kkt B fuel) (qp1 b) 1 where
  isQp := qpCfg_isQp _ _ _ _
  convex := qp1_convex b
  params := inertiaDefaults_good
  deltaInit := rfl
  deltaMax := by show (0 : ℚ) ≤ inertiaDefaults.deltaMax; norm_num [inertiaDefaults]
  exactOn := fun d hd => C79_exact hB _ (qp1_convex b).symm (qp1_convex b).posDef _ d hd
  alphaMin := lsOpts_good.amin1
  armijo := by show (Demo.lsOpts .bisection (1 / 10000) (1 / 1000000)).armijoC1 ≤ _; norm_num [lsOpts]

/-- `solve` returns on these programs -/
theorem qp1_returns (S : Settings ℚ) : ∃ N, ∀ (b : ℚ) (kkt : KktSys) (B : Backend ℚ 1 1), LibraryBackend B → ∀ fuel, N ≤ fuel →
    ∀ a c st x0 (l : Fin 1 → ℚ), st.hasSetup = true →
      ∃ st', solve (concreteCtx (qpCfg (qp1 b) kkt B fuel)) { S with maxIters := a, maxAlIters := c } st x0 1 l = .ok st' := by
  obtain ⟨N, hN⟩ := C72_solve_returns (n := 1) (m := 1) inertiaDefaults inertiaDefaults_good
    (by norm_num [inertiaDefaults]) _ lsOpts_good
  exact ⟨N, fun b kkt B hB fuel hf a c st x0 l hs => hN (qpCfg (qp1 b) kkt B fuel) rfl rfl hf (fun A => hB.entries A)
    (by intro x; simp [qpCfg]) _ st x0 1 l hs⟩

end Demo

open Demo in
/-- **C80 without the exception is false**: SUCCESS cannot be promised when a residual equals the tolerance.  For `min x²/2 s.t. x = 0`
started at `x = 0` with multiplier `target_tol`, `solve` never reports SUCCESS, whatever the budgets: the inner loop stops on
`outer_crit <= target_tol`, the outer loop tests `<`. All other hypotheses of `C80_converges` hold. -/
theorem C80_success_false (kkt : KktSys) (B : Backend ℚ 1 1) (hB : LibraryBackend B) :
    ∃ N, ∀ fuel, N ≤ fuel → ∀ maxIters maxAlIters, ∀ st : St (Fin 1 → ℚ) ℚ (Hidden ℚ 1 1) 1, st.hasSetup = true →
      ∃ st', solve (concreteCtx (qpCfg (qp1 0) kkt B fuel)) { qpSettings with maxIters := maxIters, maxAlIters := maxAlIters } st
          ![0] 1 ![qpSettings.targetTol] = .ok st' ∧ st'.converged ≠ .success ∧
        (qp1 0).Approx qpSettings.targetTol st'.xOpt st'.lamsOpt := by
  obtain ⟨N, hN⟩ := qp1_returns qpSettings
  refine ⟨N, fun fuel hf a c st hset => ?_⟩
  obtain ⟨st', h⟩ := hN 0 kkt B hB fuel hf a c st ![0] ![qpSettings.targetTol] hset
  refine ⟨st', h, ?_⟩
  have hcfg := qp1_cfg 0 kkt B hB fuel
  obtain ⟨stf, hfo, rfl⟩ := solve_outer _ _ _ _ _ _ _ h
  have hS : ConvergentSettings { qpSettings with maxIters := a, maxAlIters := c } 100000000 :=
    have hS := qpSettings_convergent
    { newton := hS.newton, beta := hS.beta, rho := hS.rho, target := hS.target, tolMin := hS.tolMin, lower := hS.lower
      lower_le := hS.lower_le, factor_nonneg := hS.factor_nonneg, factor_lt := hS.factor_lt, start := hS.start, shrink := hS.shrink
      room := hS.room }
  have heq : qpOuter (qp1 0) stf.xOpt stf.lamsOpt = qpSettings.targetTol := by
    refine qp_stall _ 1 hcfg hS _ stf ?_ ?_ ?_ ?_ hfo
    · simp [initSolve, updateToleranceFailure, tolerancePostUpdate, setProxParameter, setPenalty, qpSettings]
    · simp [initSolve, updateToleranceFailure, tolerancePostUpdate, setProxParameter, setPenalty]
    · show qpSettings.muLower ≤ qpSettings.muInit
      exact hS.lower_le
    · rw [(initSolve_lams _ _ _ _).1, (initSolve_lams _ _ _ _).2.2]
      show qpOuter (qp1 0) ![0] ![qpSettings.targetTol] = qpSettings.targetTol
      decide +kernel
  have hle : ∀ i, |(qp1 0).residual stf.xOpt i| ≤ qpSettings.targetTol := fun i =>
    (abs_le_inftyNorm _ i).trans ((le_max_left _ _).trans heq.le)
  have hle2 : ∀ j, |(qp1 0).lagrangian stf.xOpt stf.lamsOpt j| ≤ qpSettings.targetTol := fun j =>
    (abs_le_inftyNorm _ j).trans ((le_max_right _ _).trans heq.le)
  refine ⟨fun hs => ?_, hle, hle2⟩
  obtain ⟨f, cc, he, h1, h2⟩ := C13_success_certifies_partial _ _ _ _ _ _ _ hS.newton h hs
  have he' : (f, cc) = ((qp1 0).cost stf.xOpt, (qp1 0).residual stf.xOpt) := (Option.some.inj he).symm
  obtain ⟨rfl, rfl⟩ := Prod.mk.inj he'
  refine absurd heq (ne_of_lt (max_lt ((inftyNorm_lt_iff _ _).2 ⟨?_, fun i => ?_⟩) ((inftyNorm_lt_iff _ _).2 ⟨?_, fun j => ?_⟩)))
  · norm_num [qpSettings]
  · have := h1 i
    simpa [concreteCtx, qpCfg, StackedSet.ofLeaves, LeafSet.projAt] using this
  · norm_num [qpSettings]
  · exact h2 j

namespace Demo

/-- settings with two penalty parameters, 1 and 1/2, which are too large for the first primal tolerance -/
def cycleSettings : Settings ℚ :=
  { targetTol := 1 / 10, muInit := 1, rhoInit := 0, muLower := 1 / 2, muUpper := 2, innerTol0 := 1 / 10,
    primTol0 := 1, innerTolMin := 0, pdalBeta := 1 / 2, primAlpha := 0, primBeta := 1,
    dualAlpha := 0, dualBeta := 1, muUpdateFactor := 1 / 2, rhoUpdateFactor := 1, maxIters := 100,
    maxAlIters := 100, mode := .newton, kkt := .classic, pow := fun x e => if e = 0 then 1 else x }

/-- the states of the cycle -/
structure Cycle (st : St (Fin 1 → ℚ) ℚ (Hidden ℚ 1 1) 1) : Prop where
  rho : st.rho = 0
  setMu : st.setMu = st.mu
  prev : st.lamsPrev 0 = 0
  inner : st.innerTol = 1 / 10
  prim : st.primTol = 1
  conv : st.converged = .uninit
  iters : st.numIters ≤ st.alIters
  point : (st.mu = 1 ∧ st.xOpt 0 = 0 ∧ st.lamsOpt 0 = 0) ∨ (st.mu = 1 ∧ st.xOpt 0 = 4 ∧ st.lamsOpt 0 = -4) ∨
    (st.mu = 1 / 2 ∧ st.xOpt 0 = 3 ∧ st.lamsOpt 0 = -3)

theorem qp1_residual (b : ℚ) (x : Fin 1 → ℚ) : (qp1 b).residual x 0 = x 0 - b := by simp [Qp.residual, qp1]

theorem qp1_lagrangian (b : ℚ) (x l : Fin 1 → ℚ) : (qp1 b).lagrangian x l 0 = x 0 + l 0 := by
  simp [Qp.lagrangian, Qp.gradient, qp1]

theorem cycle_outer (kkt : KktSys) (B : Backend ℚ 1 1) (hB : LibraryBackend B) (fuel a c : ℕ) (ha : c + 1 < a)
    (st st' : St (Fin 1 → ℚ) ℚ (Hidden ℚ 1 1) 1) (hc : Cycle st)
    (h : outerLoop (concreteCtx (qpCfg (qp1 6) kkt B fuel)) { cycleSettings with maxIters := a, maxAlIters := c } st = .ok st') :
    Cycle st' := by
  generalize hk : c - st.alIters = k
  induction k using Nat.strong_induction_on generalizing st with
  | _ k ih =>
    rw [outerLoop] at h
    split_ifs at h with hg
    · have hg2 : st.alIters < c := hg.2
      split at h
      · cases h
      · rename_i st1 hin
        have hmu : 0 < st.mu := by rcases hc.point with hp | hp | hp <;> rw [hp.1] <;> norm_num
        have ho := qp_outer_step (qpCfg (qp1 6) kkt B fuel) (qp1 6) 1 (qp1_cfg 6 kkt B hB fuel)
          { cycleSettings with maxIters := a, maxAlIters := c } rfl rfl st st1 hc.rho hc.setMu hmu (by rw [hc.inner]; norm_num)
          (by show st.numIters + 1 < a; have := hc.iters; omega) hin
        have hal : (afterInner { cycleSettings with maxIters := a, maxAlIters := c } st1).alIters = st.alIters := by
          rw [afterInner_alIters]; exact (innerLoop_frame _ _ _ _ hin).alIters
        simp only at h
        generalize afterInner { cycleSettings with maxIters := a, maxAlIters := c } st1 = st2 at h ho hal
        -- the step solves the subproblem
        have hout : ∀ x l, 1 < |(qp1 6).residual x 0| → cycleSettings.targetTol < qpOuter (qp1 6) x l := by
          intro x l hx
          refine lt_of_lt_of_le ?_ ((abs_le_inftyNorm _ 0).trans (le_max_left _ _))
          exact lt_trans (by norm_num [cycleSettings]) hx
        have hsub : (qp1 6).SubOptimal st.mu st.lamsPrev st2.xOpt st2.lamsOpt := by
          rcases ho.move with ⟨hx, hl, hcr | hcr⟩ | ⟨hs, -⟩
          · exfalso
            rw [hc.inner] at hcr
            have := ((inftyNorm_le_iff _ _).1 ((le_max_right _ _).trans hcr)).2 0
            rw [qp1_residual, hc.prev] at this
            rcases hc.point with ⟨p1, p2, p3⟩ | ⟨p1, p2, p3⟩ | ⟨p1, p2, p3⟩ <;> rw [p1, p2, p3] at this <;> norm_num [abs_of_pos, abs_of_neg] at this
          · exfalso
            refine absurd hcr (not_le.2 (hout _ _ ?_))
            rw [qp1_residual]
            rcases hc.point with ⟨p1, p2, p3⟩ | ⟨p1, p2, p3⟩ | ⟨p1, p2, p3⟩ <;> rw [p2] <;> norm_num [abs_of_pos, abs_of_neg]
          · exact hs
        have e1 := hsub.1 0
        have e2 := hsub.2 0
        rw [qp1_lagrangian] at e1
        rw [qp1_residual, hc.prev] at e2
        have hpt : (st.mu = 1 ∧ st2.xOpt 0 = 3 ∧ st2.lamsOpt 0 = -3) ∨ (st.mu = 1 / 2 ∧ st2.xOpt 0 = 4 ∧ st2.lamsOpt 0 = -4) := by
          rcases hc.point with ⟨p1, -, -⟩ | ⟨p1, -, -⟩ | ⟨p1, -, -⟩ <;> rw [p1] at e2
          · left; exact ⟨p1, by linarith, by linarith⟩
          · left; exact ⟨p1, by linarith, by linarith⟩
          · right; exact ⟨p1, by linarith, by linarith⟩
        have hres : 1 < |(qp1 6).residual st2.xOpt 0| := by
          rw [qp1_residual]
          rcases hpt with ⟨-, p2, -⟩ | ⟨-, p2, -⟩ <;> rw [p2] <;> norm_num [abs_of_pos, abs_of_neg]
        have hprim : 1 < st2.prim := by rw [ho.prim]; exact lt_of_lt_of_le hres (abs_le_inftyNorm _ 0)
        rw [if_neg (by
          refine not_lt.2 (le_trans ?_ (le_max_left _ _))
          exact le_trans (by norm_num [cycleSettings]) hprim.le)] at h
        rcases ho.result with hr | hr
        · rw [hc.prim] at hr
          exact absurd hr.1 (not_lt.2 hprim.le)
        · obtain ⟨-, r2, r3, r4, r5, r6⟩ := hr
          simp only [cycleSettings] at r3 r5 r6
          have hmu2 : (st.mu = 1 → st2.mu = 1 / 2) ∧ (st.mu = 1 / 2 → st2.mu = 1) := by
            constructor <;> intro hm <;> rw [r3, hm] <;> norm_num
          refine ih (c - (st.alIters + 1)) (by omega) (qpNext _ st2 (st.alIters + 1)) ?_ h rfl
          refine { rho := ?_, setMu := r4, prev := (congrFun r2 0).trans hc.prev, inner := ?_, prim := ?_, conv := ?_, iters := ?_, point := ?_ }
          · show st2.rho * _ = 0
            rw [ho.rho, hc.rho, zero_mul]
          · show st2.innerTol = _
            rw [r5]; norm_num
          · show st2.primTol = _
            rw [r6]; norm_num
          · exact ho.converged.trans hc.conv
          · show st2.numIters ≤ st.alIters + 1
            have := ho.numIters
            have := hc.iters
            omega
          · rcases hpt with ⟨p1, p2⟩ | ⟨p1, p2⟩
            · exact Or.inr (Or.inr ⟨hmu2.1 p1, p2⟩)
            · exact Or.inr (Or.inl ⟨hmu2.2 p1, p2⟩)
    · cases h; exact hc

end Demo

open Demo in
/-- **C80 without `room` is false**: when the smallest penalty parameter is too large for the first primal tolerance, `updatePenalty` goes
back from `mu_lower` to `mu_init`, the multipliers are never updated and the solver cycles through the same two points for
ever, on `min x²/2 s.t. x = 6`, whatever the budget of outer iterations.  (With the default settings the same happens for
`x = b` with `b` above about 1.3e8.) -/
theorem C80_room_needed (kkt : KktSys) (B : Backend ℚ 1 1) (hB : LibraryBackend B) :
    ∃ N, ∀ fuel, N ≤ fuel → ∀ maxIters maxAlIters, maxAlIters + 1 < maxIters →
      ∀ st : St (Fin 1 → ℚ) ℚ (Hidden ℚ 1 1) 1, st.hasSetup = true →
      ∃ st', solve (concreteCtx (qpCfg (qp1 6) kkt B fuel)) { cycleSettings with maxIters := maxIters, maxAlIters := maxAlIters } st
          ![0] 1 ![0] = .ok st' ∧ st'.converged = .uninit ∧ 2 ≤ |(qp1 6).residual st'.xOpt 0| := by
  obtain ⟨N, hN⟩ := qp1_returns cycleSettings
  refine ⟨N, fun fuel hf a c hac st hset => ?_⟩
  obtain ⟨st', h⟩ := hN 6 kkt B hB fuel hf a c st ![0] ![0] hset
  refine ⟨st', h, ?_⟩
  obtain ⟨stf, hfo, rfl⟩ := solve_outer _ _ _ _ _ _ _ h
  obtain ⟨i1, i2, i3⟩ := initSolve_lams { cycleSettings with maxIters := a, maxAlIters := c } st ![0] ![0]
  have hcyc := cycle_outer kkt B hB fuel a c hac _ stf
    { rho := by simp [initSolve, updateToleranceFailure, tolerancePostUpdate, setProxParameter, setPenalty, cycleSettings]
      setMu := by simp [initSolve, updateToleranceFailure, tolerancePostUpdate, setProxParameter, setPenalty]
      prev := by rw [i2]; rfl
      inner := by simp [initSolve, updateToleranceFailure, tolerancePostUpdate, setProxParameter, setPenalty, cycleSettings]
      prim := by
        simp only [initSolve, updateToleranceFailure, tolerancePostUpdate, setProxParameter, setPenalty, cycleSettings]
        norm_num
      conv := rfl
      iters := le_rfl
      point := Or.inl ⟨by simp [initSolve, updateToleranceFailure, tolerancePostUpdate, setProxParameter, setPenalty, cycleSettings], by rw [i3]; rfl, by rw [i1]; rfl⟩ } hfo
  refine ⟨hcyc.conv, ?_⟩
  show 2 ≤ |(qp1 6).residual stf.xOpt 0|
  rw [qp1_residual]
  rcases hcyc.point with ⟨-, p2, -⟩ | ⟨-, p2, -⟩ | ⟨-, p2, -⟩ <;> rw [p2] <;> norm_num [abs_of_pos, abs_of_neg]

/-- the solvers of the two negative results exist -/
example : LibraryBackend (denseBackend (n := 1) (m := 1) (0 : ℚ) (DenseObj.init 2)) := .dense _

end ProxNLP
