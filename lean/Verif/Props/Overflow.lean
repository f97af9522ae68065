import Verif.Lemmas.Overflow
import Verif.Lemmas.OverflowNorm
import Verif.Lemmas.OverflowAgree
import Verif.Props.ExtSolver
import Verif.Props.InfBox
import Verif.Props.FloatSolver

/-! Property theorems for C114: SUCCESS in floating-point arithmetic with rounding and overflow. -/

set_option linter.unusedSectionVars false
namespace ProxNLP

open ExtScalar Spec

section general
variable {X K H : Type} {n m : ℕ} [Field K] [LinearOrder K] [IsStrictOrderedRing K]

/-- the tested point: all data are numbers, the sums did not overflow, the residuals are small -/
theorem ovTested_facts (A : OvArith K) (hA : A.eta ≤ A.big) (P : OvCtx X K H n m) (hn : LargestNorm P.norm)
    (hb : ∀ i, ∃ b ∈ P.blocks, i ∈ b) (hset : ∀ i, RowInRange A.big (P.sets i)) (hord : P.rhsOrder = P.order) (d N : ℕ)
    (hsum : AddsAll P.order d N) (tol : K) (s : OvSt X K H m) (ht : OvTested A P s.resMu s) (hpos : 0 < s.resMu)
    (hlt : lt (stdMax s.prim s.dual) (fin tol) = true) (hneg : ∀ v c, P.eval s.xOpt = some (v, c) → ∀ i, c i ≠ negInf) :
    ∃ (g : Fin n → K) (J : Fin m → Fin n → K) (lam c : Fin m → K) (v : ExtScalar K),
      (∀ j, P.grad s.xOpt j = fin (g j)) ∧ (∀ i j, P.jac s.xOpt i j = fin (J i j)) ∧ (∀ i, s.lamsOpt i = fin (lam i)) ∧
      P.eval s.xOpt = some (v, fun i => fin (c i)) ∧
      (∀ j, |exactDual g J lam j| < tol + dualSlack A.toRounding d N g J lam j) ∧
      ∀ i, ExtRowCertified (P.sets i) s.resMu ((tol + A.eta) / (1 - A.u) + rowSlack A.toRounding s.resMu (c i) (lam i)) (c i) (lam i) := by
  obtain ⟨h, hc, v, c, he, -, hcs, hpr, hdu⟩ := ht
  have hterm : ∀ j, (none ∈ (P.order h j).terms) ∧ ∀ i, some i ∈ (P.order h j).terms := by
    intro j
    obtain ⟨h1, -⟩ := hsum h j
    exact ⟨h1.mem_iff.2 List.mem_cons_self, fun i => h1.mem_iff.2 (List.mem_cons_of_mem _ (List.mem_ofFn.2 ⟨i, rfl⟩))⟩
  have htop := hc.top
  rw [hord] at htop
  choose T hT using htop
  have hleaf := fun j => ovEval_fin (hT j)
  choose g hg using fun j => (hleaf j).1 (hterm j).1
  choose J hJ' using fun i j => ((hleaf j).2 i ((hterm j).2 i)).1
  have hJ : ∀ i j, P.jac s.xOpt i j = fin (J i j) := hJ'
  choose lam hlam using hc.lam
  have hcf : ∀ i, ∃ a, c i = fin a := fun i => (hcs i).resolve_right fun hh => hneg v c he i hh.2
  choose c' hc' using hcf
  have hcc : c = fun i => fin (c' i) := funext hc'
  -- the norms
  have hrow : ∀ i, ovRowErr A (P.sets i) (P.fused h i) s.resMu (c i) (s.lamsOpt i) ≠ nan := fun i => by
    rw [hc' i, hlam i]
    exact ovRowErr_ne_nan hA (hset i) _ hpos.le _ _
  have hblk : ∀ b : List (Fin m), nan ∉ b.map fun i => ovRowErr A (P.sets i) (P.fused h i) s.resMu (c i) (s.lamsOpt i) := by
    intro b hm
    obtain ⟨i, -, hi⟩ := List.mem_map.1 hm
    exact hrow i hi
  have hall : nan ∉ P.blocks.map fun b => P.norm (b.map fun i => ovRowErr A (P.sets i) (P.fused h i) s.resMu (c i) (s.lamsOpt i)) := by
    intro hm
    obtain ⟨b, -, hi⟩ := List.mem_map.1 hm
    exact norm_ne_nan hn (hblk b) hi
  have hdl : nan ∉ List.ofFn (ovLagGrad A P (P.order h) s.xOpt s.lamsOpt) := by
    intro hm
    obtain ⟨j, hj⟩ := List.mem_ofFn.1 hm
    rw [hT j] at hj
    cases hj
  rw [hpr, hdu] at hlt
  obtain ⟨f1, f2⟩ := stdMax_lt_ext (norm_ne_nan hn hall) (norm_ne_nan hn hdl) hlt
  refine ⟨g, J, lam, c', v, hg, hJ, hlam, by rw [he, hcc], fun j => ?_, fun i => ?_⟩
  · obtain ⟨r, h1, h2⟩ := norm_lt hn hdl f2 _ (List.mem_ofFn.2 ⟨j, rfl⟩)
    have h3 : (P.order h j).ovEval A (fin (g j)) (fun i => (fin ((fun i => (J i j, lam i)) i : K × K).1, fin ((fun i => (J i j, lam i)) i : K × K).2)) = fin r := by
      rw [← h1]
      unfold ovLagGrad
      rw [hg j]
      congr 1
      funext i
      rw [hJ i j, hlam i]
    have h4 := ovEval_eq (g j) (fun i => (J i j, lam i)) h3
    obtain ⟨k1, k2, k3⟩ := hsum h j
    -- the error of the sum, from the model without overflow
    let Q : FlCtx Unit K Unit n m :=
      { eval := fun _ => none, grad := fun _ => g, jac := fun _ => J, sets := fun _ => (.equality, 0), order := fun _ => P.order h,
        fused := fun _ _ => false, crit := fun _ => 0, estimates := fun _ => (lam, lam), updHess := fun _ _ _ _ => (), enterInner := id,
        step := fun _ => none, nextMu := id, tolSuccess := fun _ t => t, tolFailure := fun t => (t, t) }
    have h5 := flDual_error A.toRounding Q (d := d) (N := N) (fun _ j => hsum h j) () () lam j
    have h6 : |r - exactDual g J lam j| ≤ dualSlack A.toRounding d N g J lam j := by
      rw [h4]
      exact h5
    have h7 := abs_sub_abs_le_abs_sub (exactDual g J lam j) r
    rw [abs_sub_comm] at h7
    linarith
  · obtain ⟨b, hb1, hb2⟩ := hb i
    obtain ⟨r, h1, h2⟩ := norm_lt hn hall f1 _ (List.mem_map_of_mem hb1)
    obtain ⟨r', h3, h4⟩ := norm_lt hn (hblk b) (t := tol) (by
      rw [h1]
      simp only [lt, decide_eq_true_eq]
      exact (le_abs_self r).trans_lt h2) _ (List.mem_map_of_mem hb2)
    rw [hc' i, hlam i] at h3
    exact ovRow_certified hA (hset i) _ hpos (c' i) (lam i) tol r' h3 h4

/-- **C114 (SUCCESS, mode NEWTON).**  Rounding, overflow, NaN and infinities together: if `solve` returns SUCCESS, then gradient, Jacobian,
multipliers and constraint values at the returned point are numbers, and the exact residuals computed from them are below the tolerance
up to the rounding errors of C100, although the shifted values of the constraints may have overflowed.  Assumed of the platform: the
norm of a vector without NaN is its largest entry, and the two products of the Jacobian with the multipliers are summed in the same order
(`C114_order_false`).  Excluded, as in C98: constraint values `-∞` returned by the user's functions. -/
theorem C114_success (A : OvArith K) (hA : A.eta ≤ A.big) (P : OvCtx X K H n m) (hn : LargestNorm P.norm)
    (hb : ∀ i, ∃ b ∈ P.blocks, i ∈ b) (hset : ∀ i, RowInRange A.big (P.sets i)) (hord : P.rhsOrder = P.order) (d N : ℕ)
    (hsum : AddsAll P.order d N) (S : Settings K) (hmode : S.mode = .newton) (h0 : 0 < S.muInit) (hmu : ∀ t, 0 < t → 0 < P.nextMu t)
    (st st' : OvSt X K H m) (x0 : X) (lams0 : Fin m → ExtScalar K) (h : ovSolve A P S st x0 lams0 = some st')
    (hs : st'.converged = .success) (hneg : ∀ v c, P.eval st'.xOpt = some (v, c) → ∀ i, c i ≠ negInf) :
    ∃ (g : Fin n → K) (J : Fin m → Fin n → K) (lam c : Fin m → K) (v : ExtScalar K),
      (∀ j, P.grad st'.xOpt j = fin (g j)) ∧ (∀ i j, P.jac st'.xOpt i j = fin (J i j)) ∧ (∀ i, st'.lamsOpt i = fin (lam i)) ∧
      P.eval st'.xOpt = some (v, fun i => fin (c i)) ∧
      (∀ j, |exactDual g J lam j| < S.targetTol + dualSlack A.toRounding d N g J lam j) ∧
      ∀ i, ExtRowCertified (P.sets i) st'.resMu
        ((S.targetTol + A.eta) / (1 - A.u) + rowSlack A.toRounding st'.resMu (c i) (lam i)) (c i) (lam i) := by
  obtain ⟨s, h1, h2, h3, h4, h5, h6, h7⟩ := ovOuter_spec A P S hmu _ st' (by simp) h0 h hs
  rw [h2] at hneg
  rw [h2, h4, h5 hmode]
  exact ovTested_facts A hA P hn hb hset hord d N hsum S.targetTol s h1 h7 h6 hneg

/-- **C114 (SUCCESS, any mode).**  The returned point violates no row by more than the tolerance plus the rounding error at the multiplier
that was tested. -/
theorem C114_feasible (A : OvArith K) (hA : A.eta ≤ A.big) (P : OvCtx X K H n m) (hn : LargestNorm P.norm)
    (hb : ∀ i, ∃ b ∈ P.blocks, i ∈ b) (hset : ∀ i, RowInRange A.big (P.sets i)) (hord : P.rhsOrder = P.order) (d N : ℕ)
    (hsum : AddsAll P.order d N) (S : Settings K) (h0 : 0 < S.muInit) (hmu : ∀ t, 0 < t → 0 < P.nextMu t)
    (st st' : OvSt X K H m) (x0 : X) (lams0 : Fin m → ExtScalar K) (h : ovSolve A P S st x0 lams0 = some st')
    (hs : st'.converged = .success) (hneg : ∀ v c, P.eval st'.xOpt = some (v, c) → ∀ i, c i ≠ negInf) :
    ∃ (c lam : Fin m → K) (v : ExtScalar K), P.eval st'.xOpt = some (v, fun i => fin (c i)) ∧
      ∀ i, ∃ y, ExtMem (P.sets i) y ∧
        |c i - y| < (S.targetTol + A.eta) / (1 - A.u) + rowSlack A.toRounding st'.resMu (c i) (lam i) := by
  obtain ⟨s, h1, h2, h3, h4, h5, h6, h7⟩ := ovOuter_spec A P S hmu _ st' (by simp) h0 h hs
  rw [h2] at hneg
  obtain ⟨g, J, lam, c, v, -, -, -, a4, -, a6⟩ := ovTested_facts A hA P hn hb hset hord d N hsum S.targetTol s h1 h7 h6 hneg
  rw [h2, h4]
  exact ⟨c, lam, v, a4, fun i => by obtain ⟨p, p1, p2, -⟩ := a6 i; exact ⟨p, p1, p2⟩⟩

/-- **C114 (bad data at the start).**  A call with positive budgets throws if a gradient or Jacobian entry, a multiplier or a constraint
value at the starting point is not a number (other than `-∞` for an inequality), and also if they are numbers but a sum of the gradient of
the Lagrangian overflows. -/
theorem C114_rejects (A : OvArith K) (P : OvCtx X K H n m) (d N : ℕ) (hsum : AddsAll P.rhsOrder d N) (S : Settings K)
    (hi : 0 < S.maxIters) (ho : 0 < S.maxAlIters) (st : OvSt X K H m) (x0 : X) (lams0 : Fin m → ExtScalar K)
    (hbad : (∃ j, ∀ a, P.grad x0 j ≠ fin a) ∨ (∃ i j, ∀ a, P.jac x0 i j ≠ fin a) ∨ (∃ i, ∀ a, lams0 i ≠ fin a) ∨
      (∃ v c i, P.eval x0 = some (v, c) ∧ (∀ a, c i ≠ fin a) ∧ (P.sets i = .negOrthant → c i ≠ negInf)) ∨
      ∃ j, ∀ a, (P.rhsOrder (P.enterInner st.hidden) j).ovEval A (P.grad x0 j) (fun i => (P.jac x0 i j, lams0 i)) ≠ fin a) :
    ovSolve A P S st x0 lams0 = none := by
  unfold ovSolve
  rw [ovOuter, if_pos ⟨hi, ho⟩]
  have key : ovInner A P S { st with
      mu := S.muInit, rho := S.rhoInit, tols := P.tolFailure S.muInit, xOpt := x0, lamsOpt := lams0, lamsPrev := lams0
      converged := .uninit, numIters := 0, alIters := 0, resMu := S.muInit, hidden := P.enterInner st.hidden } = none := by
    rw [ovInner]
    simp only
    cases hev : ovEval A P S (P.enterInner st.hidden) S.muInit S.rhoInit st.target x0 lams0 lams0 with
    | none => rfl
    | some ev =>
      simp only
      cases hok : ev.rhsOk with
      | false => rw [if_pos (.inl rfl)]
      | true =>
        exfalso
        obtain ⟨hc, v, c, he, -, hcs, -, -⟩ := ovEval_clean hev hok
        have hterm : ∀ j, (none ∈ (P.rhsOrder (P.enterInner st.hidden) j).terms) ∧
            ∀ i, some i ∈ (P.rhsOrder (P.enterInner st.hidden) j).terms := by
          intro j
          obtain ⟨h1, -⟩ := hsum (P.enterInner st.hidden) j
          exact ⟨h1.mem_iff.2 List.mem_cons_self, fun i => h1.mem_iff.2 (List.mem_cons_of_mem _ (List.mem_ofFn.2 ⟨i, rfl⟩))⟩
        rcases hbad with ⟨j, h⟩ | ⟨i, j, h⟩ | ⟨i, h⟩ | ⟨v', c', i, h1, h2, h3⟩ | ⟨j, h⟩
        · obtain ⟨a, ha⟩ := hc.top j
          obtain ⟨b, hb⟩ := (ovEval_fin ha).1 (hterm j).1
          exact h b hb
        · obtain ⟨a, ha⟩ := hc.top j
          obtain ⟨⟨b, hb⟩, -⟩ := (ovEval_fin ha).2 i ((hterm j).2 i)
          exact h b hb
        · obtain ⟨a, ha⟩ := hc.lam i
          exact h a ha
        · rw [he] at h1
          cases h1
          rcases hcs i with ⟨a, ha⟩ | ⟨h4, h5⟩
          · exact h2 a ha
          · exact h3 h4 h5
        · obtain ⟨a, ha⟩ := hc.top j
          exact h a ha
  rw [key]

/-- a starting point that passes the test is returned -/
theorem ovSolve_first (A : OvArith K) (P : OvCtx X K H n m) (S : Settings K) (hi : 0 < S.maxIters) (ho : 0 < S.maxAlIters)
    (st : OvSt X K H m) (x0 : X) (lams0 : Fin m → ExtScalar K) (ev : ExtEval K n m)
    (hev : ovEval A P S (P.enterInner st.hidden) S.muInit S.rhoInit st.target x0 lams0 lams0 = some ev) (hok : ev.rhsOk = true)
    (hm : P.matrixOk (P.enterInner st.hidden) = true) (ht : lt (stdMax ev.prim ev.dual) (fin S.targetTol) = true) :
    ∃ st', ovSolve A P S st x0 lams0 = some st' ∧ st'.converged = .success ∧ st'.xOpt = x0 ∧ st'.prim = ev.prim ∧ st'.dual = ev.dual ∧
      (S.mode = .newton → st'.lamsOpt = lams0) := by
  unfold ovSolve
  rw [ovOuter, if_pos ⟨hi, ho⟩]
  have key : ∃ s, ovInner A P S { st with
      mu := S.muInit, rho := S.rhoInit, tols := P.tolFailure S.muInit, xOpt := x0, lamsOpt := lams0, lamsPrev := lams0
      converged := .uninit, numIters := 0, alIters := 0, resMu := S.muInit, hidden := P.enterInner st.hidden } = some s ∧
      s.xOpt = x0 ∧ s.prim = ev.prim ∧ s.dual = ev.dual ∧ s.lamsOpt = lams0 := by
    rw [ovInner]
    simp only
    rw [hev]
    simp only
    rw [if_neg (by simp [hok, hm]), if_pos (.inr (le_of_lt_ext ht))]
    exact ⟨_, rfl, rfl, rfl, rfl, rfl⟩
  obtain ⟨s, h1, h2, h3, h4, h5⟩ := key
  rw [h1]
  obtain ⟨a1, a2, a3, -, -, a6, -⟩ := ovAfterInner_same P S s
  simp only
  rw [if_pos (by rw [a2, a3, h3, h4]; exact ht)]
  exact ⟨_, rfl, rfl, a1.trans h2, a2.trans h3, a3.trans h4, fun hmo => (a6 hmo).trans h5⟩

theorem ovInner_step (A : OvArith K) (P : OvCtx X K H n m) (S : Settings K) (st : OvSt X K H m) (ev : ExtEval K n m)
    (o : ExtStepOut X K H m)
    (hev : ovEval A P S st.hidden st.mu st.rho st.target st.xOpt st.lamsOpt st.lamsPrev = some ev)
    (hok : ev.rhsOk = true) (hm : P.matrixOk st.hidden = true)
    (ht : (le ev.innerCrit (fin st.tols.1) || le (stdMax ev.prim ev.dual) (fin S.targetTol)) = false)
    (ho : P.step ⟨st.xOpt, st.lamsOpt, st.lamsPrev, st.target, st.mu, st.rho, P.updHess st.hidden st.xOpt (P.grad st.xOpt) ev.lamsPdal⟩ = some o)
    (hc : (checkValue (List.ofFn o.lam) || checkScalar o.merit) = false) (hn : st.numIters + 1 < S.maxIters) :
    ovInner A P S st = ovInner A P S { ovAfterEval P st ev with
              xOpt := o.x, lamsOpt := o.lam, lamsPlus := o.lamsPlus, lamsPdal := o.lamsPdal, hidden := o.hidden
              numIters := st.numIters + 1 } := by
  rw [Bool.or_eq_false_iff] at ht hc
  rw [ovInner, hev]
  simp only
  rw [if_neg (by simp [hok, hm]), if_neg (by simp [ht])]
  simp only [ovAfterEval]
  rw [ho]
  simp only
  rw [if_neg (by simp [hc]), if_neg (by omega)]

theorem ovInner_stop (A : OvArith K) (P : OvCtx X K H n m) (S : Settings K) (st : OvSt X K H m) (ev : ExtEval K n m)
    (hev : ovEval A P S st.hidden st.mu st.rho st.target st.xOpt st.lamsOpt st.lamsPrev = some ev)
    (hok : ev.rhsOk = true) (hm : P.matrixOk st.hidden = true) (ht : le (stdMax ev.prim ev.dual) (fin S.targetTol) = true) :
    ovInner A P S st = some (ovAfterEval P st ev) := by
  rw [ovInner, hev]
  simp only
  rw [if_neg (by simp [hok, hm]), if_pos (.inr ht)]

/-- **C114 (without overflow nothing changes).**  For finite data and a given call there is a bound such that in every format whose largest
number is at least the bound the call behaves as without overflow: it throws in the same cases and otherwise returns the same results.
So C100 and the other claims about rounded arithmetic apply to calls whose intermediate results stay in the range of the format. -/
theorem C114_agrees (R : Rounding K) (S : Settings K) (Q : OvCtx X K H n m) (P : FlCtx X K H n m) (prox : K → X → X → Fin n → K)
    (hW : WithoutOverflow R S Q P prox) (hn : LargestNorm Q.norm) (hb : ∀ i, ∃ b ∈ Q.blocks, i ∈ b) (st : FlSt X K H m) (w : ExtScalar K)
    (x0 : X) (lams0 : Fin m → K) :
    ∃ M₀, ∀ M, M₀ ≤ M →
      (flSolve R P S st x0 lams0 = none → ovSolve { R with big := M } Q S (ovLift w st) x0 (fun i => fin (lams0 i)) = none) ∧
      ∀ s, flSolve R P S st x0 lams0 = some s →
        ∃ w', ovSolve { R with big := M } Q S (ovLift w st) x0 (fun i => fin (lams0 i)) = some (ovLift w' s) := by
  have key := ovOuter_event hW hn hb _ { st with
    mu := S.muInit, rho := S.rhoInit, tols := P.tolFailure S.muInit, xOpt := x0, lamsOpt := lams0, lamsPrev := lams0
    converged := .uninit, numIters := 0, alIters := 0 } rfl w
  have e : ∀ M, ovSolve { R with big := M } Q S (ovLift w st) x0 (fun i => fin (lams0 i)) = ovOuter (OvArith.of R M) Q S (ovLift w { st with
    mu := S.muInit, rho := S.rhoInit, tols := P.tolFailure S.muInit, xOpt := x0, lamsOpt := lams0, lamsPrev := lams0
    converged := .uninit, numIters := 0, alIters := 0 }) := by
    intro M
    unfold ovSolve
    rw [hW.tolFailure]
    rfl
  simp only [e]
  unfold flSolve
  refine Filter.eventually_atTop.1 ?_
  cases hfl : flOuter R P S { st with
    mu := S.muInit, rho := S.rhoInit, tols := P.tolFailure S.muInit, xOpt := x0, lamsOpt := lams0, lamsPrev := lams0
    converged := .uninit, numIters := 0, alIters := 0 } with
  | none =>
    filter_upwards [key.1 hfl] with M hM
    exact ⟨fun _ => hM, fun s hs => by cases hs⟩
  | some s' =>
    obtain ⟨w', hw'⟩ := key.2 s' hfl
    filter_upwards [hw'] with M hM
    exact ⟨fun h => (by cases h), fun s hs => by cases hs; exact ⟨w', hM⟩⟩

end general

/-! ### Runs in IEEE double arithmetic -/

namespace Demo

/-- IEEE double arithmetic: largest finite number `(2^53 - 1) 2^971` -/
def double : OvArith ℚ := { binary64 with big := (2 ^ 53 - 1) * 2 ^ 971 }

/-- constant data; no step is ever computed -/
def ovConst {n m : ℕ} (g : Fin n → ExtScalar ℚ) (J : Fin m → Fin n → ExtScalar ℚ) (c : Fin m → ExtScalar ℚ) (sets : Fin m → ExtSet ℚ)
    (order rhsOrder : SumTree (Fin m)) : OvCtx Unit ℚ Unit n m where
  eval _ := some (fin 0, c)
  grad _ := g
  jac _ := J
  proxGrad _ _ _ _ := fin 0
  sets := sets
  blocks := List.ofFn fun i => [i]
  norm := seqNorm
  order _ _ := order
  rhsOrder _ _ := rhsOrder
  fused _ _ := false
  fusedPrev _ _ := true
  fusedPdal _ _ := false
  matrixOk _ := true
  updHess _ _ _ _ := ()
  enterInner _ := ()
  step _ := none
  nextMu t := t
  tolSuccess _ t := t
  tolFailure _ := (1, 1)

/-- any state -/
def ovState (m : ℕ) : OvSt Unit ℚ Unit m where
  xOpt := ()
  lamsOpt _ := fin 0
  lamsPrev _ := fin 0
  lamsPlus _ := fin 0
  lamsPdal _ := fin 0
  mu := 1
  rho := 0
  tols := (1, 1)
  target := ()
  converged := .uninit
  numIters := 0
  alIters := 0
  prim := fin 0
  dual := fin 0
  value := fin 0
  resMu := 0
  hidden := ()

/-- `((p0 + p1) + (p2 + p3)) + g` -/
def pairs : SumTree (Fin 4) := .add (.add (.add (.prod 0) (.prod 1)) (.add (.prod 2) (.prod 3))) .init

/-- `((p0 + p2) + (p1 + p3)) + g` -/
def crossed : SumTree (Fin 4) := .add (.add (.add (.prod 0) (.prod 2)) (.add (.prod 1) (.prod 3))) .init

/-- gradient `(0, 2^1000)`, products of the second variable `2^1023, 2^1023, -2^1023, -2^1023` -/
def ovCancel : OvCtx Unit ℚ Unit 2 4 :=
  ovConst ![fin 0, fin (2 ^ 1000)] ![![fin 0, fin (2 ^ 1023)], ![fin 0, fin (2 ^ 1023)], ![fin 0, fin (-2 ^ 1023)], ![fin 0, fin (-2 ^ 1023)]]
    (fun _ => fin 0) (fun _ => .equality) pairs crossed

end Demo

open Demo

/-- **C114 needs the same order of summation in both products.**  If the dual residual is summed in another order than the right-hand side
that is checked for NaN, an overflow can make it NaN without being noticed: in double arithmetic a run returns SUCCESS with a reported dual
residual of 0 at a point where all data are numbers and the exact dual residual is `2^1000`. -/
theorem C114_order_false : ∃ st', ovSolve double ovCancel extSettings (ovState 4) () (fun _ => fin 1) = some st' ∧ st'.converged = .success ∧
    st'.dual = fin 0 ∧ (∀ i, st'.lamsOpt i = fin 1) ∧
    exactDual (fun j => ![0, 2 ^ 1000] j) (fun i j => (![![0, 2 ^ 1023], ![0, 2 ^ 1023], ![0, -2 ^ 1023], ![0, -2 ^ 1023]] : Fin 4 → Fin 2 → ℚ) i j)
      (fun _ => 1) 1 = 2 ^ 1000 ∧
    LargestNorm ovCancel.norm ∧ AddsAll ovCancel.order 4 10 ∧ AddsAll ovCancel.rhsOrder 4 10 := by
  obtain ⟨st', h1, h2, -, -, h5, h6⟩ := ovSolve_first double ovCancel extSettings (by decide) (by decide) (ovState 4) () (fun _ => fin 1) _ rfl
    (by decide +kernel) rfl (by decide +kernel)
  refine ⟨st', h1, h2, ?_, fun i => by rw [h6 rfl], by decide +kernel, seqNorm_largest, by unfold AddsAll; decide, by unfold AddsAll; decide⟩
  rw [h5]
  decide +kernel

namespace Demo

/-- the transpose of the Jacobian is `(2^600, -2^600)`, both multipliers are `2^600`, everything else is zero: `((2^600 λ₀) + (-2^600 λ₁)) + 0` -/
def ovExact : OvCtx Unit ℚ Unit 1 2 :=
  ovConst (fun _ => fin 0) ![fun _ => fin (2 ^ 600), fun _ => fin (-2 ^ 600)] (fun _ => fin 0) (fun _ => .equality)
    (.add (.add (.prod 0) (.prod 1)) .init) (.add (.add (.prod 0) (.prod 1)) .init)

end Demo

/-- **A solution whose data are numbers can be rejected.**  In double arithmetic a call started at an exact solution with exact
multipliers throws, because two products overflow and their sum is NaN (in C100, without overflow, the call returns SUCCESS). -/
theorem C114_recognised_false :
    exactDual (fun _ => 0) (fun i _ => (![2 ^ 600, -2 ^ 600] : Fin 2 → ℚ) i) (fun _ => 2 ^ 600) (0 : Fin 1) = 0 ∧
    (∀ i, exactRow (K := ℚ) (.equality, 0) 1 ((fun _ : Fin 2 => 0) i) (2 ^ 600) = 0) ∧
    LargestNorm ovExact.norm ∧ AddsAll ovExact.order 3 10 ∧
    ovSolve double ovExact extSettings (ovState 2) () (fun _ => fin (2 ^ 600)) = none := by
  refine ⟨by decide +kernel, by decide +kernel, seqNorm_largest, by unfold AddsAll; decide, ?_⟩
  apply C114_rejects double ovExact 3 10 (by unfold AddsAll; decide) extSettings (by decide) (by decide)
  refine .inr (.inr (.inr (.inr ⟨0, fun a h => ?_⟩)))
  rw [show ovExact.rhsOrder (ovExact.enterInner (ovState 2).hidden) 0 = .add (.add (.prod 0) (.prod 1)) .init from rfl] at h
  have : SumTree.ovEval double (ovExact.grad () 0) (fun i => (ovExact.jac () i 0, fin (2 ^ 600))) (.add (.add (.prod 0) (.prod 1)) .init) =
      (nan : ExtScalar ℚ) := by decide +kernel
  rw [this] at h
  cases h

namespace Demo

/-- Box row with lower bound `-1.5 2^1023`; the first point has gradient 1, the step goes to the second, with gradient 0 and multiplier
`-2^1023`. -/
def ovRun : OvCtx Bool ℚ Unit 1 1 where
  eval _ := some (fin 0, fun _ => fin (-(3 * 2 ^ 1022)))
  grad x _ := if x then fin 0 else fin 1
  jac _ _ _ := fin 0
  proxGrad _ _ _ _ := fin 0
  sets _ := .box (fin (-(3 * 2 ^ 1022))) posInf
  blocks := [[0]]
  norm := seqNorm
  order _ _ := .fma 0 .init
  rhsOrder _ _ := .fma 0 .init
  fused _ _ := false
  fusedPrev _ _ := true
  fusedPdal _ _ := false
  matrixOk _ := true
  updHess _ _ _ _ := ()
  enterInner _ := ()
  step _ := some ⟨true, fun _ => fin (-2 ^ 1023), fin 0, fun _ => fin 0, fun _ => fin 0, ()⟩
  nextMu t := t
  tolSuccess _ t := t
  tolFailure _ := (1 / 4, 1)

/-- any state -/
def ovRunState : OvSt Bool ℚ Unit 1 where
  xOpt := false
  lamsOpt _ := fin 0
  lamsPrev _ := fin 0
  lamsPlus _ := fin 0
  lamsPdal _ := fin 0
  mu := 1
  rho := 0
  tols := (1, 1)
  target := false
  converged := .uninit
  numIters := 0
  alIters := 0
  prim := fin 0
  dual := fin 0
  value := fin 0
  resMu := 0
  hidden := ()

end Demo

/-- In double arithmetic a run takes a step and returns SUCCESS at a point whose shifted constraint value overflows to `-∞`; all hypotheses
of `C114_success` hold. -/
example : (∃ st', ovSolve double ovRun extSettings ovRunState false (fun _ => fin 0) = some st' ∧ st'.converged = .success ∧ st'.xOpt = true ∧
      st'.numIters = 1 ∧ ovShift double false 1 (fin (-(3 * 2 ^ 1022))) (st'.lamsOpt 0) = negInf) ∧
    double.eta ≤ double.big ∧ LargestNorm ovRun.norm ∧ (∀ i, ∃ b ∈ ovRun.blocks, i ∈ b) ∧ (∀ i, RowInRange double.big (ovRun.sets i)) ∧
    ovRun.rhsOrder = ovRun.order ∧ AddsAll ovRun.order 2 2 ∧ extSettings.mode = .newton ∧ (0 : ℚ) < extSettings.muInit ∧
    (∀ t, 0 < t → 0 < ovRun.nextMu t) ∧ ∀ v c, ovRun.eval true = some (v, c) → ∀ i, c i ≠ negInf := by
  refine ⟨?_, by decide +kernel, seqNorm_largest, by decide, fun i => ⟨⟨0, by decide +kernel, rfl⟩, ?_, trivial⟩, rfl, by unfold AddsAll; decide, rfl, by decide,
    fun t ht => ht, ?_⟩
  · have key : ∃ s, ovInner double ovRun extSettings { ovRunState with
        mu := extSettings.muInit, rho := extSettings.rhoInit, tols := ovRun.tolFailure extSettings.muInit, xOpt := false
        lamsOpt := fun _ => fin 0, lamsPrev := fun _ => fin 0, converged := .uninit, numIters := 0, alIters := 0
        resMu := extSettings.muInit, hidden := ovRun.enterInner ovRunState.hidden } = some s ∧
        lt (stdMax s.prim s.dual) (fin extSettings.targetTol) = true ∧ s.xOpt = true ∧ s.numIters = 1 ∧ s.lamsOpt 0 = fin (-2 ^ 1023) := by
      rw [ovInner_step _ _ _ _ _ _ rfl (by decide +kernel) rfl (by decide +kernel) rfl (by decide +kernel) (by decide),
        ovInner_stop _ _ _ _ _ rfl (by decide +kernel) rfl (by decide +kernel)]
      exact ⟨_, rfl, by decide +kernel, rfl, rfl, rfl⟩
    obtain ⟨s, h1, h2, h3, h4, h5⟩ := key
    unfold ovSolve
    rw [ovOuter, if_pos (by decide), h1]
    obtain ⟨a1, a2, a3, -, -, a6, -⟩ := ovAfterInner_same ovRun extSettings s
    simp only
    rw [if_pos (by rw [a2, a3]; exact h2)]
    refine ⟨_, rfl, rfl, a1.trans h3, ?_, ?_⟩
    · simp only [ovAfterInner]
      split_ifs <;> exact h4
    · show ovShift double false 1 _ ((ovAfterInner ovRun extSettings s).lamsOpt 0) = negInf
      rw [a6 rfl, h5]
      decide +kernel
  · show |(-(3 * 2 ^ 1022) : ℚ)| ≤ double.big
    decide +kernel
  · intro v c h i
    cases h
    exact fun h => by cases h

namespace Demo

/-- minimise `x²/2` subject to `x ≤ 0` from data at the point `x`; steps go to `x = -1/3` -/
def ovFin : OvCtx ℚ ℚ Unit 1 1 where
  eval x := some (fin (x ^ 2 / 2), fun _ => fin x)
  grad x _ := fin x
  jac _ _ _ := fin 1
  proxGrad rho t x _ := fin (rho * (x - t))
  sets _ := .negOrthant
  blocks := [[0]]
  norm := seqNorm
  order _ _ := .fma 0 .init
  rhsOrder _ _ := .add .init (.prod 0)
  fused _ _ := false
  fusedPrev _ _ := true
  fusedPdal _ _ := false
  matrixOk _ := true
  updHess _ _ _ _ := ()
  enterInner _ := ()
  step _ := some ⟨-1 / 3, fun _ => fin (1 / 3), fin 0, fun _ => fin 0, fun _ => fin 0, ()⟩
  nextMu t := t / 10
  tolSuccess _ t := t
  tolFailure _ := (1 / 4, 1)

/-- the same problem without overflow -/
def flFin : FlCtx ℚ ℚ Unit 1 1 where
  eval x := some (x ^ 2 / 2, fun _ => x)
  grad x _ := x
  jac _ _ _ := 1
  sets _ := (.negOrthant, 0)
  order _ _ := .fma 0 .init
  fused _ _ := false
  estimates i := (fun k => flLamPlus binary64 (.negOrthant, 0) true i.mu i.x (i.lamPrev k),
    fun k => flLamPdal binary64 (.negOrthant, 0) true false i.mu extSettings.pdalBeta i.x (i.lamPrev k) (i.lam k))
  crit i := max
    (inftyNorm fun _ : Fin 1 =>
      if 0 < i.rho then
        binary64.rnd ((SumTree.add .init (.prod 0)).eval binary64 i.x (fun k : Fin 1 => (1, i.lam k)) + i.rho * (i.x - i.target))
      else (SumTree.add .init (.prod 0)).eval binary64 i.x (fun k : Fin 1 => (1, i.lam k)))
    (inftyNorm fun k : Fin 1 =>
      binary64.rnd (i.mu * binary64.rnd (flLamPlus binary64 (.negOrthant, 0) true i.mu i.x (i.lamPrev k) - i.lam k)))
  updHess _ _ _ _ := ()
  enterInner _ := ()
  step _ := some ⟨-1 / 3, fun _ => 1 / 3, fun _ => 0, fun _ => 0, ()⟩
  nextMu t := t / 10
  tolSuccess _ t := t
  tolFailure _ := (1 / 4, 1)

end Demo

/-- The hypotheses of `C114_agrees` hold for a problem with all kinds of data. -/
example : WithoutOverflow binary64 extSettings ovFin flFin (fun rho t x _ => rho * (x - t)) ∧ LargestNorm ovFin.norm ∧
    ∀ i, ∃ b ∈ ovFin.blocks, i ∈ b := by
  refine ⟨?_, seqNorm_largest, by decide⟩
  constructor
  case stepSome =>
    intro i o h
    cases h
    exact ⟨0, rfl⟩
  case stepNone => exact fun i h => by cases h
  case plus =>
    intro i v c h k
    cases h
    rfl
  case pdal =>
    intro i v c h k
    cases h
    rfl
  case crit =>
    intro i v c h
    cases h
    rfl
  all_goals intros; rfl

end ProxNLP
