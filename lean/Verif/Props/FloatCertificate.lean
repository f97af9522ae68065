import Verif.Props.FloatSolver
import Verif.Props.Certificate

/-!
C100, continued: functions evaluated with errors.

The user's functions round too.  Here the problem that is meant (`P₀`, exact) is kept apart from what the functions return (`P`).
-/

set_option linter.unusedSectionVars false
namespace ProxNLP

open Spec

variable {X K H H₀ : Type} {n m : ℕ} [Field K] [LinearOrder K] [IsStrictOrderedRing K]

/-- what the functions return at `x` is within the given errors of the problem that is meant -/
structure Spec.CloseAt (P : FlCtx X K H n m) (P₀ : Ctx X K H₀ n m) (x : X) (δc δg : K) (δJ : Fin m → Fin n → K) : Prop where
  values : ∀ v c, P.eval x = some (v, c) → ∃ v₀ c₀, P₀.eval x = some (v₀, c₀) ∧ ∀ i, |c i - c₀ i| ≤ δc
  grad : ∀ j, |P.grad x j - P₀.grad x j| ≤ δg
  jac : ∀ i j, |P.jac x i j - P₀.jac x i j| ≤ δJ i j

/-- the residual of a row moves no more than the value -/
theorem exactRow_nonexp (leaf : LeafSet K × ℕ) (hv : ValidAt leaf.1 leaf.2) (mu : K) (hmu : 0 ≤ mu) (c c₀ lam : K) :
    |exactRow leaf mu c₀ lam| ≤ |exactRow leaf mu c lam| + |c - c₀| := by
  have key : |exactRow leaf mu c₀ lam - exactRow leaf mu c lam| ≤ |c - c₀| := by
    unfold exactRow
    rcases le_total c c₀ with h | h
    · obtain ⟨h1, h2⟩ := projAt_mono leaf.1 mu hmu leaf.2 (c + mu * lam) (c₀ + mu * lam) hv (by linarith)
      rw [abs_sub_comm c c₀, abs_of_nonneg (by linarith : (0 : K) ≤ c₀ - c), abs_le]
      constructor <;> linarith
    · obtain ⟨h1, h2⟩ := projAt_mono leaf.1 mu hmu leaf.2 (c₀ + mu * lam) (c + mu * lam) hv (by linarith)
      rw [abs_of_nonneg (by linarith : (0 : K) ≤ c - c₀), abs_le]
      constructor <;> linarith
  have := abs_add_le (exactRow leaf mu c₀ lam - exactRow leaf mu c lam) (exactRow leaf mu c lam)
  rw [sub_add_cancel] at this
  linarith

theorem exactDual_close (g g₀ : Fin n → K) (J J₀ : Fin m → Fin n → K) (lam : Fin m → K) (j : Fin n) :
    |exactDual g₀ J₀ lam j| ≤ |exactDual g J lam j| + (|g j - g₀ j| + ∑ i, |J i j - J₀ i j| * |lam i|) := by
  have e : exactDual g₀ J₀ lam j = exactDual g J lam j + -((g j - g₀ j) + ∑ i, (J i j - J₀ i j) * lam i) := by
    unfold exactDual
    simp only [sub_mul, Finset.sum_sub_distrib]
    ring
  rw [e]
  refine (abs_add_le _ _).trans (add_le_add le_rfl ?_)
  rw [abs_neg]
  refine (abs_add_le _ _).trans (add_le_add le_rfl ?_)
  refine (Finset.abs_sum_le_sum_abs _ _).trans (le_of_eq ?_)
  simp only [abs_mul]

/-- SUCCESS with mode NEWTON: the returned pair satisfies the first-order conditions of the problem that is meant, with any tolerance `T`
that covers the target tolerance, the rounding errors of the test and the errors of the functions. -/
theorem C100_certified (R : Rounding K) (P : FlCtx X K H n m) (P₀ : Ctx X K H₀ n m) (leaf : Fin m → LeafSet K × ℕ)
    (hsets : P.sets = leaf) (hsets₀ : P₀.sets = StackedSet.ofLeaves leaf) (S : Settings K) (d N : ℕ) (hP : SumsAll P d N)
    (hv : RowsValid P) (hmode : S.mode = .newton) (h0 : 0 ≤ S.muInit) (hmu : ∀ t, 0 ≤ t → 0 ≤ P.nextMu t) (st st' : FlSt X K H m) (x0 : X)
    (lams0 : Fin m → K) (h : flSolve R P S st x0 lams0 = some st') (hs : st'.converged = .success) (hpos : 0 ≤ st'.resMu)
    (δc δg : K) (δJ : Fin m → Fin n → K) (hclose : CloseAt P P₀ st'.xOpt δc δg δJ) (T : K)
    (hT : ∀ v c, P.eval st'.xOpt = some (v, c) → ∀ i,
      (S.targetTol + R.eta) / (1 - R.u) + rowSlack R st'.resMu (c i) (st'.lamsOpt i) + δc ≤ T)
    (hT' : ∀ j, S.targetTol + dualSlack R d N (P.grad st'.xOpt) (P.jac st'.xOpt) st'.lamsOpt j +
      (δg + ∑ i, δJ i j * |st'.lamsOpt i|) ≤ T) :
    Certified P₀ st'.resMu T st'.xOpt st'.lamsOpt := by
  obtain ⟨v, c, he, h1, h2⟩ := C100_success_rounded R P S d N hP hv hmode h0 hmu st st' x0 lams0 h hs
  obtain ⟨v₀, c₀, he₀, hc⟩ := hclose.values v c he
  refine ⟨v₀, c₀, he₀, fun i => ?_, fun j => ?_⟩
  · rw [hsets₀]
    have a1 := exactRow_nonexp (P.sets i) (rowsValid_at P hv i) st'.resMu hpos (c i) (c₀ i) (st'.lamsOpt i)
    have a2 := h1 i
    have a3 := hc i
    have a4 := hT v c he i
    have a5 : |exactRow (P.sets i) st'.resMu (c₀ i) (st'.lamsOpt i)| < T := by linarith
    rw [hsets] at a5
    exact a5
  · have a1 := exactDual_close (P.grad st'.xOpt) (P₀.grad st'.xOpt) (P.jac st'.xOpt) (P₀.jac st'.xOpt) st'.lamsOpt j
    have a2 := h2 j
    have a3 := hclose.grad j
    have a4 : ∑ i, |P.jac st'.xOpt i j - P₀.jac st'.xOpt i j| * |st'.lamsOpt i| ≤ ∑ i, δJ i j * |st'.lamsOpt i| :=
      Finset.sum_le_sum fun i _ => mul_le_mul_of_nonneg_right (hclose.jac i j) (abs_nonneg _)
    have a5 := hT' j
    have a6 : |exactDual (P₀.grad st'.xOpt) (P₀.jac st'.xOpt) st'.lamsOpt j| < T := by linarith
    exact a6

/-- Convex problems: the suboptimality bound of C84 holds for a run in rounded arithmetic with inexact functions, with `T` in place of the
target tolerance. -/
theorem C100_suboptimality (R : Rounding K) (P : FlCtx (Fin n → K) K H n m) (P₀ : Ctx (Fin n → K) K H₀ n m) (f : (Fin n → K) → K)
    (A : Fin m → Fin n → K) (b : Fin m → K) (leaf : Fin m → LeafSet K × ℕ) (hP₀ : Composite P₀ f A b leaf) (hsets : P.sets = leaf)
    (S : Settings K) (d N : ℕ) (hP : SumsAll P d N) (hmode : S.mode = .newton) (h0 : 0 ≤ S.muInit) (hmu : ∀ t, 0 ≤ t → 0 ≤ P.nextMu t)
    (st st' : FlSt (Fin n → K) K H m) (x0 : Fin n → K) (lams0 : Fin m → K) (h : flSolve R P S st x0 lams0 = some st')
    (hs : st'.converged = .success) (hpos : 0 < st'.resMu)
    (δc δg : K) (δJ : Fin m → Fin n → K) (hclose : CloseAt P P₀ st'.xOpt δc δg δJ) (T : K)
    (hT : ∀ v c, P.eval st'.xOpt = some (v, c) → ∀ i,
      (S.targetTol + R.eta) / (1 - R.u) + rowSlack R st'.resMu (c i) (st'.lamsOpt i) + δc ≤ T)
    (hT' : ∀ j, S.targetTol + dualSlack R d N (P.grad st'.xOpt) (P.jac st'.xOpt) st'.lamsOpt j +
      (δg + ∑ i, δJ i j * |st'.lamsOpt i|) ≤ T) :
    ∃ z, Feasible leaf z ∧ (∀ i, |affine A b st'.xOpt i - z i| < T) ∧ ∀ y, Feasible leaf (affine A b y) →
      f st'.xOpt + penalties leaf z ≤ f y + penalties leaf (affine A b y) + T * ∑ j, |y j - st'.xOpt j| +
        ∑ i, (T * (|st'.lamsOpt i| + T / st'.resMu) + T / st'.resMu * |affine A b y i - affine A b st'.xOpt i|) := by
  have hv : RowsValid P := by
    intro i
    rw [hsets]
    have := hP₀.boxes i
    generalize leaf i = q at this ⊢
    obtain ⟨s, k⟩ := q
    cases s with
    | box lo hi => exact this lo hi rfl
    | _ => trivial
  exact C84_residuals_bound_suboptimality P₀ f A b leaf hP₀ st'.resMu T hpos st'.xOpt st'.lamsOpt
    (C100_certified R P P₀ leaf hsets hP₀.sets S d N hP hv hmode h0 hmu st st' x0 lams0 h hs hpos.le δc δg δJ hclose T hT hT')

namespace Demo

/-- `l1Qp` in double arithmetic, with functions whose values and gradients are off by `2^-40` -/
def flL1 : FlCtx (Fin 1 → ℚ) ℚ Unit 1 1 where
  eval := fun x => some (0, fun _ => x 0 - 3 + 1 / 2 ^ 40)
  grad := fun x _ => x 0 - 1 / 2 ^ 40
  jac := fun _ _ _ => 1
  sets := l1Leaf
  order := fun _ _ => .add .init (.prod 0)
  fused := fun _ _ => true
  crit := fun _ => 0
  estimates := fun i => (i.lam, i.lam)
  updHess := fun h _ _ _ => h
  enterInner := id
  step := fun _ => none
  nextMu := fun t => t
  tolSuccess := fun _ t => t
  tolFailure := fun _ => (1 / 2 ^ 10, 1 / 2 ^ 10)

/-- hypotheses of `C100_certified` and `C100_suboptimality`, with `T = 2^-19` for a target tolerance of `2^-20` -/
example : ∃ st', flSolve binary64 flL1 flS ⟨0, fun _ => 0, fun _ => 0, 0, 0, (0, 0), 0, .uninit, 0, 0, 0, 0, 0, fun _ => 0, fun _ => 0, ()⟩
      (fun _ => 1) (fun _ => -1) = some st' ∧ st'.converged = .success ∧ 0 < st'.resMu ∧
    SumsAll flL1 2 2 ∧ Composite (concreteCtx (l1Cfg .classic)) l1Qp.cost l1Qp.A l1Qp.b l1Leaf ∧ flL1.sets = l1Leaf ∧
    CloseAt flL1 (concreteCtx (l1Cfg .classic)) st'.xOpt (1 / 2 ^ 40) (1 / 2 ^ 40) (fun _ _ => 0) ∧
    (∀ v c, flL1.eval st'.xOpt = some (v, c) → ∀ i,
      (flS.targetTol + binary64.eta) / (1 - binary64.u) + rowSlack binary64 st'.resMu (c i) (st'.lamsOpt i) + 1 / 2 ^ 40 ≤ 1 / 2 ^ 19) ∧
    ∀ j, flS.targetTol + dualSlack binary64 2 2 (flL1.grad st'.xOpt) (flL1.jac st'.xOpt) st'.lamsOpt j +
      (1 / 2 ^ 40 + ∑ i : Fin 1, 0 * |st'.lamsOpt i|) ≤ 1 / 2 ^ 19 := by
  obtain ⟨st', h1, h2, h3, -, h5, h6, -, -⟩ := flSolve_first binary64 flL1 flS (by decide) (by decide)
    ⟨0, fun _ => 0, fun _ => 0, 0, 0, (0, 0), 0, .uninit, 0, 0, 0, 0, 0, fun _ => 0, fun _ => 0, ()⟩ (fun _ => 1)
    (fun _ => -1) _ _ rfl (by decide +kernel)
  refine ⟨st', h1, h2, by rw [h5]; decide +kernel, ?_, l1_composite _, rfl, ?_, ?_, ?_⟩
  · intro h j
    refine ⟨?_, by simp [flL1, SumTree.depth], by simp [flL1, SumTree.count]⟩
    show [none, some (0 : Fin 1)].Perm [none, some 0]
    exact List.Perm.refl _
  · rw [h3]
    refine ⟨fun v c hc => ⟨_, _, rfl, ?_⟩, by decide +kernel, by decide +kernel⟩
    cases hc
    decide +kernel
  · rw [h3, h5, h6 rfl]
    intro v c hc
    cases hc
    decide +kernel
  · rw [h3, h6 rfl]
    decide +kernel

end Demo

end ProxNLP
