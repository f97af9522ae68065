import Verif.Lemmas.FloatSolver
import Mathlib.Data.Fin.VecNotation
import Mathlib.Tactic.FinCases

/-!
C100: what SUCCESS and the reported residuals mean in floating-point arithmetic.

The residuals are computed with rounding, in any order of summation and with or without fused operations, and the order may change from
one iteration to the next.  Everything else the solver computes is an arbitrary function.
-/

set_option linter.unusedSectionVars false
namespace ProxNLP

open Spec

variable {X K H : Type} {n m : ℕ} [Field K] [LinearOrder K] [IsStrictOrderedRing K]

/-- SUCCESS with multiplier mode NEWTON: the exact residuals at the returned point, multipliers and penalty are below the tolerance plus
the stated rounding errors. -/
theorem C100_success_rounded (R : Rounding K) (P : FlCtx X K H n m) (S : Settings K) (d N : ℕ) (hP : SumsAll P d N) (hv : RowsValid P)
    (hmode : S.mode = .newton) (h0 : 0 ≤ S.muInit) (hmu : ∀ t, 0 ≤ t → 0 ≤ P.nextMu t) (st st' : FlSt X K H m) (x0 : X)
    (lams0 : Fin m → K) (h : flSolve R P S st x0 lams0 = some st') (hs : st'.converged = .success) :
    ∃ v c, P.eval st'.xOpt = some (v, c) ∧
      (∀ i, |exactRow (P.sets i) st'.resMu (c i) (st'.lamsOpt i)| <
        (S.targetTol + R.eta) / (1 - R.u) + rowSlack R st'.resMu (c i) (st'.lamsOpt i)) ∧
      (∀ j, |exactDual (P.grad st'.xOpt) (P.jac st'.xOpt) st'.lamsOpt j| <
        S.targetTol + dualSlack R d N (P.grad st'.xOpt) (P.jac st'.xOpt) st'.lamsOpt j) := by
  obtain ⟨s, ⟨v, c, h1, he, hp, hd⟩, e1, e2, e3, hlt, hm⟩ := flSolve_spec R P S hmu h0 st st' x0 lams0 h hs
  rw [e1, e2, e3 hmode]
  rw [max_lt_iff] at hlt
  refine ⟨v, c, he, fun i => ?_, fun j => ?_⟩
  · have h2 := hlt.1
    rw [hp, flPrim, inftyNorm_lt_iff] at h2
    exact flRow_lower R _ (rowsValid_at P hv i) _ _ hm _ _ _ (h2.2 i)
  · have h2 := hlt.2
    rw [hd, flDual, inftyNorm_lt_iff] at h2
    have h3 := h2.2 j
    have h4 := flDual_error R P hP h1 s.xOpt s.lamsOpt j
    have h5 := abs_add_le ((P.order h1 j).eval R (P.grad s.xOpt j) fun i => (P.jac s.xOpt i j, s.lamsOpt i))
      (-((P.order h1 j).eval R (P.grad s.xOpt j) (fun i => (P.jac s.xOpt i j, s.lamsOpt i)) -
        exactDual (P.grad s.xOpt) (P.jac s.xOpt) s.lamsOpt j))
    rw [abs_neg] at h5
    have e : ∀ a b : K, a + -(a - b) = b := fun a b => by ring
    rw [e] at h5
    linarith

/-- SUCCESS, any multiplier mode: the returned point violates no row by more than the tolerance plus the stated rounding error (at the
multiplier that was tested). -/
theorem C100_feasible (R : Rounding K) (P : FlCtx X K H n m) (S : Settings K) (hv : RowsValid P) (h0 : 0 ≤ S.muInit)
    (hmu : ∀ t, 0 ≤ t → 0 ≤ P.nextMu t) (st st' : FlSt X K H m) (x0 : X) (lams0 : Fin m → K)
    (h : flSolve R P S st x0 lams0 = some st') (hs : st'.converged = .success) :
    ∃ v c lam, P.eval st'.xOpt = some (v, c) ∧ (S.mode = .newton → lam = st'.lamsOpt) ∧
      ∀ i, ∃ y, rowAllows (P.sets i) y ∧ |c i - y| < (S.targetTol + R.eta) / (1 - R.u) + rowSlack R st'.resMu (c i) (lam i) := by
  obtain ⟨s, ⟨v, c, h1, he, hp, hd⟩, e1, e2, e3, hlt, hm⟩ := flSolve_spec R P S hmu h0 st st' x0 lams0 h hs
  rw [e1, e2]
  refine ⟨v, c, s.lamsOpt, he, fun hmode => (e3 hmode).symm, fun i => ?_⟩
  have h2 := (max_lt_iff.1 hlt).1
  rw [hp, flPrim, inftyNorm_lt_iff] at h2
  refine ⟨_, ?_, flRow_lower R _ (rowsValid_at P hv i) _ _ hm _ _ _ (h2.2 i)⟩
  have := projAt_mem (P.sets i).1 s.resMu (P.sets i).2 (c i + s.resMu * s.lamsOpt i) (rowsValid_at P hv i)
  generalize P.sets i = q at this ⊢
  obtain ⟨l, k⟩ := q
  cases l <;> simp_all [MemAt, rowAllows]

/-- SUCCESS with mode NEWTON, backward form: the returned pair is stationary up to the tolerance (and underflow) for a gradient and a
Jacobian each of whose entries differ from those of the problem by a relative error of at most `(1+u)^d - 1`. -/
theorem C100_backward (R : Rounding K) (P : FlCtx X K H n m) (S : Settings K) (d N : ℕ) (hP : SumsAll P d N)
    (hmode : S.mode = .newton) (h0 : 0 ≤ S.muInit) (hmu : ∀ t, 0 ≤ t → 0 ≤ P.nextMu t) (st st' : FlSt X K H m) (x0 : X)
    (lams0 : Fin m → K) (h : flSolve R P S st x0 lams0 = some st') (hs : st'.converged = .success) :
    ∃ (g : Fin n → K) (J : Fin m → Fin n → K),
      (∀ j, |g j - P.grad st'.xOpt j| ≤ ((1 + R.u) ^ d - 1) * |P.grad st'.xOpt j|) ∧
      (∀ i j, |J i j - P.jac st'.xOpt i j| ≤ ((1 + R.u) ^ d - 1) * |P.jac st'.xOpt i j|) ∧
      ∀ j, |exactDual g J st'.lamsOpt j| < S.targetTol + N * R.eta * (1 + R.u) ^ d := by
  obtain ⟨s, ⟨v, c, h1, he, hp, hd⟩, e1, e2, e3, hlt, hm⟩ := flSolve_spec R P S hmu h0 st st' x0 lams0 h hs
  rw [e1, e3 hmode]
  have h2 := (max_lt_iff.1 hlt).2
  rw [hd, flDual, inftyNorm_lt_iff] at h2
  have key := fun j => spread_error (fun i => P.jac s.xOpt i j) s.lamsOpt (P.grad s.xOpt j) ((1 + R.u) ^ d - 1) (N * R.eta * (1 + R.u) ^ d)
    _ (by linarith [one_le_G R d]) (mul_nonneg (mul_nonneg (Nat.cast_nonneg _) R.eta_nonneg) (by linarith [one_le_G R d]))
    (flDual_error R P hP h1 s.xOpt s.lamsOpt j)
  choose g w a1 a2 a3 using key
  refine ⟨g, fun i j => w j i, a1, fun i j => a2 j i, fun j => ?_⟩
  have h3 := h2.2 j
  have h4 := a3 j
  have h5 := abs_add_le ((P.order h1 j).eval R (P.grad s.xOpt j) fun i => (P.jac s.xOpt i j, s.lamsOpt i))
    (-((P.order h1 j).eval R (P.grad s.xOpt j) (fun i => (P.jac s.xOpt i j, s.lamsOpt i)) - (g j + ∑ i, w j i * s.lamsOpt i)))
  rw [abs_neg] at h5
  have e : ∀ a b : K, a + -(a - b) = b := fun a b => by ring
  rw [e] at h5
  show |g j + ∑ i, w j i * s.lamsOpt i| < _
  linarith

/-- A starting point whose exact residuals are below the tolerance by more than the rounding errors is recognised: solve returns it with
SUCCESS after 0 iterations, whatever the order of summation. -/
theorem C100_recognised (R : Rounding K) (P : FlCtx X K H n m) (S : Settings K) (d N : ℕ) (hP : SumsAll P d N) (hv : RowsValid P)
    (hi : 0 < S.maxIters) (ho : 0 < S.maxAlIters) (htol : 0 < S.targetTol) (h0 : 0 ≤ S.muInit) (st : FlSt X K H m) (x0 : X)
    (lams0 : Fin m → K) (v : K) (c : Fin m → K) (he : P.eval x0 = some (v, c))
    (hrow : ∀ i, (1 + R.u) * (|exactRow (P.sets i) S.muInit (c i) (lams0 i)| + rowSlack R S.muInit (c i) (lams0 i)) + R.eta < S.targetTol)
    (hdual : ∀ j, |exactDual (P.grad x0) (P.jac x0) lams0 j| + dualSlack R d N (P.grad x0) (P.jac x0) lams0 j < S.targetTol) :
    ∃ st', flSolve R P S st x0 lams0 = some st' ∧ st'.converged = .success ∧ st'.xOpt = x0 ∧ st'.numIters = 0 ∧
      (S.mode = .newton → st'.lamsOpt = lams0) := by
  have key := flSolve_first R P S hi ho st x0 lams0 v c he (by
    rw [max_lt_iff, flPrim, flDual, inftyNorm_lt_iff, inftyNorm_lt_iff]
    refine ⟨⟨htol, fun i => ?_⟩, htol, fun j => ?_⟩
    · exact (flRow_upper R _ (rowsValid_at P hv i) _ _ h0 _ _).trans_lt (hrow i)
    · have h4 := flDual_error R P hP (P.enterInner st.hidden) x0 lams0 j
      have h5 := abs_add_le ((P.order (P.enterInner st.hidden) j).eval R (P.grad x0 j) (fun i => (P.jac x0 i j, lams0 i)) -
        exactDual (P.grad x0) (P.jac x0) lams0 j) (exactDual (P.grad x0) (P.jac x0) lams0 j)
      rw [sub_add_cancel] at h5
      linarith [hdual j])
  obtain ⟨st', a, b, c', d', -, f, -⟩ := key
  exact ⟨st', a, b, c', d', f⟩

/-- The reported residuals, at any point: they bound the exact ones and are bounded by them, up to the rounding errors. -/
theorem C100_reported (R : Rounding K) (P : FlCtx X K H n m) (d N : ℕ) (hP : SumsAll P d N) (hv : RowsValid P) (h : H) (mu : K)
    (hmu : 0 ≤ mu) (x : X) (c lam : Fin m → K) :
    (∀ t, flPrim R P h mu c lam < t → ∀ i, |exactRow (P.sets i) mu (c i) (lam i)| < (t + R.eta) / (1 - R.u) + rowSlack R mu (c i) (lam i)) ∧
    (∀ j, |exactDual (P.grad x) (P.jac x) lam j| ≤ flDual R P h x lam + dualSlack R d N (P.grad x) (P.jac x) lam j) ∧
    (∀ t, 0 ≤ t → (∀ i, (1 + R.u) * (|exactRow (P.sets i) mu (c i) (lam i)| + rowSlack R mu (c i) (lam i)) + R.eta ≤ t) →
      flPrim R P h mu c lam ≤ t) ∧
    ∀ t, 0 ≤ t → (∀ j, |exactDual (P.grad x) (P.jac x) lam j| + dualSlack R d N (P.grad x) (P.jac x) lam j ≤ t) → flDual R P h x lam ≤ t := by
  refine ⟨fun t ht i => ?_, fun j => ?_, fun t ht hr => ?_, fun t ht hr => ?_⟩
  · rw [flPrim, inftyNorm_lt_iff] at ht
    exact flRow_lower R _ (rowsValid_at P hv i) _ _ hmu _ _ _ (ht.2 i)
  · have h4 := flDual_error R P hP h x lam j
    have h3 := abs_le_inftyNorm (fun j => (P.order h j).eval R (P.grad x j) fun i => (P.jac x i j, lam i)) j
    rw [abs_sub_comm] at h4
    have h5 := abs_add_le (exactDual (P.grad x) (P.jac x) lam j - (P.order h j).eval R (P.grad x j) fun i => (P.jac x i j, lam i))
      ((P.order h j).eval R (P.grad x j) fun i => (P.jac x i j, lam i))
    rw [sub_add_cancel] at h5
    unfold flDual
    linarith
  · rw [flPrim, inftyNorm_le_iff]
    exact ⟨ht, fun i => (flRow_upper R _ (rowsValid_at P hv i) _ _ hmu _ _).trans (hr i)⟩
  · rw [flDual, inftyNorm_le_iff]
    refine ⟨ht, fun j => ?_⟩
    have h4 := flDual_error R P hP h x lam j
    have h5 := abs_add_le ((P.order h j).eval R (P.grad x j) (fun i => (P.jac x i j, lam i)) -
      exactDual (P.grad x) (P.jac x) lam j) (exactDual (P.grad x) (P.jac x) lam j)
    rw [sub_add_cancel] at h5
    linarith [hr j]

/-- Without rounding errors the tested quantities are the exact residuals (those of `Model/Solver.lean`). -/
theorem C100_exact_arithmetic (R : Rounding K) (hR : R.u = 0 ∧ R.eta = 0) (P : FlCtx X K H n m) (d N : ℕ) (hP : SumsAll P d N)
    (h : H) (mu : K) (hmu : 0 ≤ mu) (hv : RowsValid P) (x : X) (c lam : Fin m → K) :
    flPrim R P h mu c lam = inftyNorm (fun i => exactRow (P.sets i) mu (c i) (lam i)) ∧
    flDual R P h x lam = dualResidual (P.grad x) (P.jac x) lam := by
  obtain ⟨r1, r2, r3, r4⟩ := C100_reported R P d N hP hv h mu hmu x c lam
  simp only [rowSlack, dualSlack, hR.1, hR.2] at r1 r2 r3 r4
  norm_num at r1 r2 r3 r4
  constructor
  · apply le_antisymm
    · exact r3 _ (inftyNorm_nonneg _) fun i => abs_le_inftyNorm (fun i => exactRow (P.sets i) mu (c i) (lam i)) i
    · refine le_of_forall_gt fun t ht => ?_
      rw [inftyNorm_lt_iff]
      exact ⟨lt_of_le_of_lt (inftyNorm_nonneg _) ht, fun i => r1 t ht i⟩
  · apply le_antisymm
    · exact r4 _ (inftyNorm_nonneg _) fun j => abs_le_inftyNorm (fun j => P.grad x j + ∑ i, P.jac x i j * lam i) j
    · rw [dualResidual, inftyNorm_le_iff]
      exact ⟨inftyNorm_nonneg _, fun j => r2 j⟩

/-- Size of the factor in the bounds: about `d u`. -/
theorem C100_factor (R : Rounding K) (d : ℕ) (h : d * R.u ≤ 1 / 2) : (1 + R.u) ^ d - 1 ≤ 2 * (d * R.u) := by
  induction d with
  | zero => simp
  | succ d ih =>
    push_cast at h ⊢
    have u0 := R.u_nonneg
    have h1 := ih (by linarith)
    have h2 : 2 * (d * R.u) ≤ 1 := by linarith
    rw [pow_succ]
    nlinarith [one_le_G R d]

/-- The rounding used in the concrete runs is IEEE 754 rounding of doubles: the result has 53 bits and an exponent of at least -1074, no
such number is nearer, and of two equally near ones the one with the even significand is chosen. -/
theorem C100_ieee (x : ℚ) : IsFloat 53 (-1074) (binary64.rnd x) ∧
    (∀ y, IsFloat 53 (-1074) y → |binary64.rnd x - x| ≤ |y - x|) ∧
    (∀ y, IsFloat 53 (-1074) y → y ≠ binary64.rnd x → |y - x| = |binary64.rnd x - x| →
      ∃ k k' e : ℤ, -1074 ≤ e ∧ binary64.rnd x = k * 2 ^ e ∧ y = k' * 2 ^ e ∧ k % 2 = 0 ∧ |k' - k| = 1) ∧
    binary64.u = 1 / 2 ^ 53 ∧ binary64.eta = 2 ^ (-1075 : ℤ) :=
  ⟨ieeeRnd_isFloat 53 (by norm_num) _ x, fun y => ieeeRnd_nearest 53 (by norm_num) _ x y, fun y => ieeeRnd_tie 53 (by norm_num) _ x y,
    by simp [binary64, ieeeRounding], rfl⟩

/-- a tie -/
example : IsFloat 53 (-1074) (2 ^ 53 + 2) ∧ binary64.rnd (2 ^ 53 + 1) = 2 ^ 53 ∧ binary64.rnd (2 ^ 53 + 3) = 2 ^ 53 + 4 :=
  ⟨⟨2 ^ 52 + 1, 1, by norm_num, by norm_num, by norm_num⟩, by decide +kernel, by decide +kernel⟩

/-! ### a run -/

namespace Demo

/-- minimise `x²/2 + |x|` subject to `1/3 ≤ x ≤ 2`, in double arithmetic; the step is exact up to rounding -/
def flP : FlCtx ℚ ℚ Unit 1 2 where
  eval := fun x => some (binary64.rnd (x ^ 2 / 2), ![x, x])
  grad := fun x _ => x
  jac := fun _ _ _ => 1
  sets := ![(.box (fun _ => binary64.rnd (1 / 3)) (fun _ => 2), 0), (.l1, 0)]
  order := fun _ _ => .add .init (.fma 1 (.fma 0 .zero))
  fused := fun _ i => i = 0
  crit := fun i => |i.x - 1 / 3|
  estimates := fun i => (i.lam, i.lam)
  updHess := fun h _ _ _ => h
  enterInner := id
  step := fun i => some ⟨binary64.rnd (1 / 3), ![binary64.rnd (-4 / 3), 1], i.lam, i.lam, ()⟩
  nextMu := fun t => binary64.rnd (t / 10) ⊔ 0
  tolSuccess := fun _ t => (t.1 / 2, t.2 / 2)
  tolFailure := fun _ => (1 / 2 ^ 10, 1 / 2 ^ 10)

def flS : Settings ℚ where
  targetTol := 1 / 2 ^ 20
  muInit := 1 / 2
  rhoInit := 0
  muLower := 1 / 1000
  muUpper := 1
  innerTol0 := 1
  primTol0 := 1
  innerTolMin := 1 / 100
  pdalBeta := 1 / 2
  primAlpha := 1
  primBeta := 1
  dualAlpha := 1
  dualBeta := 1
  muUpdateFactor := 1 / 10
  rhoUpdateFactor := 1
  maxIters := 5
  maxAlIters := 3
  mode := .newton
  kkt := .classic
  pow _ _ := 1

def flS0 (m : ℕ) : FlSt ℚ ℚ Unit m := ⟨0, fun _ => 0, fun _ => 0, 0, 0, (0, 0), 0, .uninit, 0, 0, 0, 0, 0, fun _ => 0, fun _ => 0, ()⟩

theorem flP_sums : SumsAll flP 3 3 := by
  intro h j
  refine ⟨?_, by simp [flP, SumTree.depth], by simp [flP, SumTree.count]⟩
  show [none, some (1 : Fin 2), some 0].Perm [none, some 0, some 1]
  decide

theorem flP_valid : RowsValid flP := by
  intro i
  fin_cases i
  · show binary64.rnd (1 / 3) ≤ 2
    decide +kernel
  · trivial

/-- the state at the start of the first inner loop -/
def flRun0 : FlSt ℚ ℚ Unit 2 :=
  { flS0 2 with mu := 1 / 2, resMu := 1 / 2, xOpt := 1, tols := (1 / 2 ^ 10, 1 / 2 ^ 10) }

/-- the state after the step and the second test -/
def flRun1 : FlSt ℚ ℚ Unit 2 := { flRun0 with
  prim := flPrim binary64 flP () (1 / 2) ![binary64.rnd (1 / 3), binary64.rnd (1 / 3)] ![binary64.rnd (-4 / 3), 1]
  dual := flDual binary64 flP () (binary64.rnd (1 / 3)) ![binary64.rnd (-4 / 3), 1]
  xOpt := binary64.rnd (1 / 3), lamsOpt := ![binary64.rnd (-4 / 3), 1], numIters := 1
  lamsPlus := ![binary64.rnd (-4 / 3), 1], lamsPdal := ![binary64.rnd (-4 / 3), 1] }

theorem flP_run : ∃ st', flSolve binary64 flP flS (flS0 2) 1 (fun _ => 0) = some st' ∧ st'.converged = .success ∧
    st'.xOpt = binary64.rnd (1 / 3) ∧ st'.numIters = 1 := by
  have hrun : flInner binary64 flP flS flRun0 = some flRun1 := by
    refine (flInner_step binary64 flP flS flRun0 _ _ rfl (by decide +kernel) rfl (by decide)).trans ?_
    exact flInner_stop binary64 flP flS _ _ rfl (.inr (by decide +kernel))
  exact flOuter_success binary64 flP flS _ flRun1 (by constructor <;> show (0 : ℕ) < _ <;> decide) hrun (by decide +kernel)

/-- hypotheses of `C100_success_rounded`, `C100_feasible` and `C100_backward`: a run with one step in double arithmetic -/
example : SumsAll flP 3 3 ∧ RowsValid flP ∧ flS.mode = .newton ∧ 0 ≤ flS.muInit ∧ (∀ t, 0 ≤ t → 0 ≤ flP.nextMu t) ∧
    ∃ st', flSolve binary64 flP flS (flS0 2) 1 (fun _ => 0) = some st' ∧ st'.converged = .success ∧ st'.numIters = 1 := by
  obtain ⟨st', h1, h2, -, h4⟩ := flP_run
  exact ⟨flP_sums, flP_valid, rfl, by decide +kernel, fun t _ => le_sup_right, st', h1, h2, h4⟩

/-- hypotheses of `C100_recognised`: the rounded solution has exact residuals below the tolerance by more than the rounding errors -/
example : (∀ i, (1 + binary64.u) * (|exactRow (flP.sets i) flS.muInit (![binary64.rnd (1 / 3), binary64.rnd (1 / 3)] i)
      (![binary64.rnd (-4 / 3), 1] i)| + rowSlack binary64 flS.muInit (![binary64.rnd (1 / 3), binary64.rnd (1 / 3)] i)
      (![binary64.rnd (-4 / 3), 1] i)) + binary64.eta < flS.targetTol) ∧
    ∀ j, |exactDual (flP.grad (binary64.rnd (1 / 3))) (flP.jac (binary64.rnd (1 / 3))) ![binary64.rnd (-4 / 3), 1] j| +
      dualSlack binary64 3 3 (flP.grad (binary64.rnd (1 / 3))) (flP.jac (binary64.rnd (1 / 3))) ![binary64.rnd (-4 / 3), 1] j <
      flS.targetTol := by
  constructor
  · decide +kernel
  · decide +kernel

/-- `SumsAll` for any number of rows: accumulation from left to right with fused operations has `m + 1` roundings -/
example (m : ℕ) : ∃ t : SumTree (Fin m), t.terms.Perm (none :: List.ofFn some) ∧ t.depth = m + 1 ∧ t.count = m + 1 := by
  have key : ∀ l : List (Fin m), ∃ t : SumTree (Fin m), t.terms = l.map some ∧ t.depth = l.length ∧ t.count = l.length := by
    intro l
    induction l with
    | nil => exact ⟨.zero, rfl, rfl, rfl⟩
    | cons a l ih =>
      obtain ⟨t, h1, h2, h3⟩ := ih
      exact ⟨.fma a t, by simp [SumTree.terms, h1], by simp [SumTree.depth, h2], by simp [SumTree.count, h3]⟩
  obtain ⟨t, h1, h2, h3⟩ := key (List.ofFn id)
  refine ⟨.add .init t, ?_, by simp [SumTree.depth, h2], by simp [SumTree.count, h3]⟩
  rw [SumTree.terms, h1, List.map_ofFn]
  exact List.Perm.refl _

/-- hypothesis of `C100_factor`: a sum of a million terms in double arithmetic -/
example : ((1000000 : ℕ) : ℚ) * binary64.u ≤ 1 / 2 := by decide +kernel

/-- minimise `x²` subject to `x = 0`, `2^60 x = 0`, `-2^60 x = 0`; the product of the Jacobian and the multipliers is accumulated from
left to right -/
def cancelP : FlCtx ℚ ℚ Unit 1 3 where
  eval := fun x => some (x ^ 2, ![x, 2 ^ 60 * x, -2 ^ 60 * x])
  grad := fun x _ => 2 * x
  jac := fun _ i _ => ![1, 2 ^ 60, -2 ^ 60] i
  sets := fun _ => (.equality, 0)
  order := fun _ _ => .add .init (.add (.add (.add .zero (.prod 0)) (.prod 1)) (.prod 2))
  fused := fun _ _ => false
  crit := fun _ => 0
  estimates := fun i => (i.lam, i.lam)
  updHess := fun h _ _ _ => h
  enterInner := id
  step := fun _ => none
  nextMu := fun t => t
  tolSuccess := fun _ t => t
  tolFailure := fun _ => (1 / 2 ^ 10, 1 / 2 ^ 10)

theorem cancelP_sums : SumsAll cancelP 5 7 := by
  intro h j
  refine ⟨?_, by simp [cancelP, SumTree.depth], by simp [cancelP, SumTree.count]⟩
  show [none, some (0 : Fin 3), some 1, some 2].Perm [none, some 0, some 1, some 2]
  decide

end Demo

/-- SUCCESS does not bound the exact residuals by the tolerance: in double arithmetic a run returns SUCCESS with multipliers whose exact
dual residual is 1, while the reported one is 0 and the tolerance is `2^-20`. -/
theorem C100_exact_false : ∃ (P : FlCtx ℚ ℚ Unit 1 3) (S : Settings ℚ) (st st' : FlSt ℚ ℚ Unit 3) (x0 : ℚ) (lams0 : Fin 3 → ℚ),
    SumsAll P 5 7 ∧ RowsValid P ∧ S.mode = .newton ∧ S.targetTol = 1 / 2 ^ 20 ∧
    flSolve binary64 P S st x0 lams0 = some st' ∧ st'.converged = .success ∧ st'.dual = 0 ∧
    exactDual (P.grad st'.xOpt) (P.jac st'.xOpt) st'.lamsOpt 0 = 1 := by
  obtain ⟨st', h1, h2, h3, -, -, h6, -, h8⟩ := flSolve_first binary64 Demo.cancelP Demo.flS (by decide) (by decide) (Demo.flS0 3) 0
    (fun _ => 1) _ _ rfl (by decide +kernel)
  refine ⟨Demo.cancelP, Demo.flS, Demo.flS0 3, st', 0, fun _ => 1, Demo.cancelP_sums, fun i => trivial, rfl, rfl, h1, h2, ?_, ?_⟩
  · rw [h8]
    decide +kernel
  · rw [h3, h6 rfl]
    decide +kernel

end ProxNLP
