import Verif.Lemmas.ExtAgree
import Verif.Props.Solver
import Mathlib.Data.Fin.VecNotation

/-! Property theorems for C98: NaN and infinite values returned by user functions. -/

set_option linter.unusedSectionVars false
namespace ProxNLP

open ExtScalar Spec

section general
variable {X K H : Type} {n m : ℕ} [Field K] [LinearOrder K] [IsStrictOrderedRing K]

/-- **C98 (partial)**: if `solve` returns SUCCESS, then at the returned point the gradient, the Jacobian and the constraint values are
numbers, whatever the steps did and whatever Eigen's norm returns on vectors with a NaN.  Missing: the cost value (`C98_value_false`)
and the value `-∞` of an inequality constraint (`C98_order_false`). -/
theorem C98_success_finite_partial (P : ExtCtx X K H n m) (S : Settings K) (st st' : ExtSt X K H m) (x0 : X)
    (lams0 : Fin m → ExtScalar K) (h : extSolve P S st x0 lams0 = some st') (hs : st'.converged = .success) :
    (∀ j, ∃ a, P.grad st'.xOpt j = fin a) ∧ (∀ i j, ∃ a, P.jac st'.xOpt i j = fin a) ∧
    ∃ v c, P.eval st'.xOpt = some (v, c) ∧ st'.value = v ∧ ∀ i, (∃ a, c i = fin a) ∨ (P.sets i = .negOrthant ∧ c i = negInf) := by
  obtain ⟨s, ⟨hc, v, c, he, hv, hcs, -, -⟩, h1, h2, -⟩ := extOuter_spec P S _ st' (.inl rfl) (by simp) (fun hp => hp.1) h hs
  rw [h1, h2]
  exact ⟨hc.grad, hc.jac, v, c, he, hv, hcs⟩

/-- **C98, certificate**: SUCCESS certifies the returned point and multipliers (mode NEWTON, the default) as in C13, also when the
problem returns NaN or infinities elsewhere and when bounds of boxes are infinite: the gradient of the Lagrangian is below the tolerance,
and every row is within the tolerance of its set with a multiplier in the normal cone.  Excluded: constraint values `-∞`. -/
theorem C98_certificate (P : ExtCtx X K H n m) (hn : GoodNorm P.norm) (hb : ∀ i, ∃ b ∈ P.blocks, i ∈ b)
    (hset : ∀ i, ExtProper (P.sets i)) (S : Settings K) (hmode : S.mode = .newton) (hmu : 0 < S.muInit ∧ 0 < S.muLower)
    (st st' : ExtSt X K H m) (x0 : X) (lams0 : Fin m → ExtScalar K) (h : extSolve P S st x0 lams0 = some st')
    (hs : st'.converged = .success) (hneg : ∀ v c, P.eval st'.xOpt = some (v, c) → ∀ i, c i ≠ negInf) :
    ∃ (g : Fin n → K) (J : Fin m → Fin n → K) (lam c : Fin m → K) (v : ExtScalar K),
      (∀ j, P.grad st'.xOpt j = fin (g j)) ∧ (∀ i j, P.jac st'.xOpt i j = fin (J i j)) ∧ (∀ i, st'.lamsOpt i = fin (lam i)) ∧
      P.eval st'.xOpt = some (v, fun i => fin (c i)) ∧ (∀ j, |g j + ∑ i, J i j * lam i| < S.targetTol) ∧
      ∀ i, ExtRowCertified (P.sets i) st'.resMu S.targetTol (c i) (lam i) := by
  obtain ⟨s, ⟨hc, v, c, he, hv, hcs, hpr, hdu⟩, h1, h2, h3, h4, h5, h6⟩ :=
    extOuter_spec P S _ st' (.inl rfl) (by simp) (fun hp => hp.1) h hs
  rw [h1] at hneg
  choose g hg using hc.grad
  choose J hJ using hc.jac
  choose lam hlam using hc.lam
  have hcf : ∀ i, ∃ a, c i = fin a := fun i => (hcs i).resolve_right fun hh => hneg v c he i hh.2
  choose c' hc' using hcf
  have hcc : c = fun i => fin (c' i) := funext hc'
  rw [h1, h3, h4 hmode]
  refine ⟨g, J, lam, c', v, hg, hJ, hlam, by rw [he, hcc], ?_⟩
  have hpos := h6 hmu
  choose p hp1 hp2 hp3 using fun i => ext_proj_fin (P.sets i) (hset i) s.resMu hpos (c' i + s.resMu * lam i)
  have hrow : ∀ i, extRowErr P s.resMu c s.lamsOpt i = fin (c' i - p i) := by
    intro i
    unfold extRowErr
    rw [hc' i, hlam i, ext_fin_mul, ext_fin_add, hp1 i, ext_fin_sub]
  have hblk : ∀ b : List (Fin m), ∃ r, P.norm (b.map (extRowErr P s.resMu c s.lamsOpt)) = fin r ∧ 0 ≤ r ∧ ∀ i ∈ b, |c' i - p i| ≤ r := by
    intro b
    obtain ⟨r, e1, e2, e3, -⟩ := hn (b.map fun i => c' i - p i)
    refine ⟨r, ?_, e2, fun i hi => e3 _ (List.mem_map_of_mem hi)⟩
    rw [← e1, List.map_map]
    congr 1
    exact List.map_congr_left fun i _ => hrow i
  choose r hr1 hr2 hr3 using hblk
  obtain ⟨R, e1, -, e3, -⟩ := hn (P.blocks.map r)
  have hprim : s.prim = fin R := by
    rw [hpr, extPrim, ← e1, List.map_map]
    congr 1
    exact List.map_congr_left fun b _ => hr1 b
  obtain ⟨D, d1, -, d3, -⟩ := hn (List.ofFn fun j => g j + ∑ i, J i j * lam i)
  have hdual : s.dual = fin D := by
    rw [hdu, ← d1, List.map_ofFn]
    congr 2
    funext j
    have : (List.ofFn fun i => P.jac s.xOpt i j * s.lamsOpt i) = (List.ofFn fun i => J i j * lam i).map fin := by
      rw [List.map_ofFn]
      congr 1
      funext i
      rw [hJ i j, hlam i]
      rfl
    rw [this, ext_sum_map, List.sum_ofFn, hg j]
    rfl
  rw [hprim, hdual] at h5
  obtain ⟨f1, f2⟩ := stdMax_lt h5
  constructor
  · intro j
    exact (d3 _ (List.mem_ofFn.2 ⟨j, rfl⟩)).trans_lt f2
  · intro i
    obtain ⟨b, hb1, hb2⟩ := hb i
    refine ⟨p i, hp2 i, ?_, hp3 i⟩
    have := e3 _ (List.mem_map_of_mem hb1)
    exact ((hr3 b i hb2).trans (le_trans (le_abs_self _) this)).trans_lt f1

/-- **C98, bad data at the start**: a call with positive budgets throws if a gradient or Jacobian entry, a multiplier or a constraint
value at the starting point is not a number (other than `-∞` for an inequality). -/
theorem C98_rejects (P : ExtCtx X K H n m) (S : Settings K) (hi : 0 < S.maxIters) (ho : 0 < S.maxAlIters) (st : ExtSt X K H m) (x0 : X)
    (lams0 : Fin m → ExtScalar K)
    (hbad : (∃ j, ∀ a, P.grad x0 j ≠ fin a) ∨ (∃ i j, ∀ a, P.jac x0 i j ≠ fin a) ∨ (∃ i, ∀ a, lams0 i ≠ fin a) ∨
      ∃ v c i, P.eval x0 = some (v, c) ∧ (∀ a, c i ≠ fin a) ∧ (P.sets i = .negOrthant → c i ≠ negInf)) :
    extSolve P S st x0 lams0 = none := by
  refine extOuter_none P S _ ⟨hi, ho⟩ (extInner_none P S _ (.inl rfl) ?_)
  exact hbad

/-- **C98, bad steps**: a step whose multipliers or merit value are not numbers is never accepted: if all steps are like that, a call
that returns has not moved (it throws or stops at its first point). -/
theorem C98_bad_step (P : ExtCtx X K H n m) (S : Settings K)
    (hbad : ∀ i o, P.step i = some o → (∃ k, ∀ a, o.lam k ≠ fin a) ∨ ∀ a, o.merit ≠ fin a) (st st' : ExtSt X K H m) (x0 : X)
    (lams0 : Fin m → ExtScalar K) (h : extSolve P S st x0 lams0 = some st') : st'.xOpt = x0 ∧ st'.numIters = 0 :=
  extOuter_bad P S hbad _ st' h

/-- **C98, bad matrices**: a call with positive budgets throws if the check of the KKT matrix fails. -/
theorem C98_bad_matrix (P : ExtCtx X K H n m) (S : Settings K) (hi : 0 < S.maxIters) (ho : 0 < S.maxAlIters) (st : ExtSt X K H m) (x0 : X)
    (lams0 : Fin m → ExtScalar K) (hbad : P.matrixOk (P.enterInner st.hidden) = false) : extSolve P S st x0 lams0 = none := by
  refine extOuter_none P S _ ⟨hi, ho⟩ ?_
  rw [extInner]
  split
  · rfl
  · rw [if_pos (.inr hbad)]

/-- **C98, finite data**: on a problem whose functions return numbers (built-in sets with finite bounds, rows grouped into constraints in
any way that covers them) this loop is the loop of `Model/Solver.lean`: same exceptions, same results. -/
theorem C98_agrees (P : Ctx X K H n m) (S : Settings K) (leaf : Fin m → LeafSet K × ℕ) (hleaf : P.sets = StackedSet.ofLeaves leaf)
    (blocks : List (List (Fin m))) (hb : ∀ i, ∃ b ∈ blocks, i ∈ b) (nrm : List (ExtScalar K) → ExtScalar K) (hn : GoodNorm nrm)
    (st : St X K H m) (hsetup : st.hasSetup = true) (x0 : X) (lams0 : Fin m → K) :
    extSolve (extLift P S leaf blocks nrm) S (extLiftSt st) x0 (fun i => fin (lams0 i)) =
      (solve P S st x0 m lams0).toOption.map extLiftSt := by
  have key := extOuter_lift P S leaf hleaf blocks hb nrm hn (initSolve S st x0 m lams0) (by simp [initSolve, setPenalty, setProxParameter, updateToleranceFailure, tolerancePostUpdate])
  have e : ({ extTolFailure S { extLiftSt st with mu := S.muInit, rho := S.rhoInit, xOpt := x0, lamsOpt := fun i => fin (lams0 i), lamsPrev := fun i => fin (lams0 i) } with
    converged := .uninit, numIters := 0, alIters := 0 } : ExtSt X K H m) = extLiftSt (initSolve S st x0 m lams0) := by
    simp [initSolve, setPenalty, setProxParameter, updateToleranceFailure, tolerancePostUpdate, extTolFailure, extTolPost, extLiftSt]
  unfold extSolve solve
  rw [e, key, if_neg (by simp [hsetup])]
  cases outerLoop P S (initSolve S st x0 m lams0) <;> rfl

end general

/-! ### Witnesses -/

/-- Eigen's sequential reduction `res = max(res, |e|)` (no vectorisation), with `std::max`. -/
def seqNorm {K : Type} [Field K] [LinearOrder K] : List (ExtScalar K) → ExtScalar K
  | [] => fin 0
  | a :: t => t.foldl (fun r e => stdMax r (ExtScalar.abs e)) (ExtScalar.abs a)

theorem seqNorm_good {K : Type} [Field K] [LinearOrder K] [IsStrictOrderedRing K] : GoodNorm (seqNorm (K := K)) := by
  have key : ∀ (t : List K) (r : K), 0 ≤ r → ∃ r', (t.map fin).foldl (fun r e => stdMax r (ExtScalar.abs e)) (fin r) = fin r' ∧ r ≤ r' ∧
      (∀ a ∈ t, |a| ≤ r') ∧ (r' = r ∨ ∃ a ∈ t, r' = |a|) := by
    intro t
    induction t with
    | nil => intro r _; exact ⟨r, rfl, le_refl r, fun a h => absurd h List.not_mem_nil, .inl rfl⟩
    | cons a t ih =>
      intro r hr
      have hm : stdMax (fin r) (ExtScalar.abs (fin a)) = fin (max r |a|) := by
        unfold stdMax
        simp only [ExtScalar.abs, lt]
        by_cases h : r < |a|
        · simp [h, max_eq_right h.le]
        · simp [h, max_eq_left (not_lt.1 h)]
      obtain ⟨r', h1, h2, h3, h4⟩ := ih (max r |a|) (hr.trans (le_max_left _ _))
      refine ⟨r', ?_, (le_max_left _ _).trans h2, ?_, ?_⟩
      · rw [List.map_cons, List.foldl_cons, hm, h1]
      · intro b hb
        rcases List.mem_cons.1 hb with rfl | hb
        · exact (le_max_right _ _).trans h2
        · exact h3 b hb
      · rcases h4 with h4 | ⟨b, hb, h4⟩
        · rcases max_choice r |a| with h5 | h5
          · exact .inl (h4.trans h5)
          · exact .inr ⟨a, List.mem_cons_self, h4.trans h5⟩
        · exact .inr ⟨b, List.mem_cons_of_mem _ hb, h4⟩
  intro l
  cases l with
  | nil => exact ⟨0, rfl, le_refl 0, fun a h => absurd h List.not_mem_nil, .inl rfl⟩
  | cons a t =>
    obtain ⟨r, h1, h2, h3, h4⟩ := key t |a| (abs_nonneg a)
    refine ⟨r, h1, (abs_nonneg a).trans h2, ?_, ?_⟩
    · intro b hb
      rcases List.mem_cons.1 hb with rfl | hb
      · exact h2
      · exact h3 b hb
    · rcases h4 with h4 | ⟨b, hb, h4⟩
      · exact .inr ⟨a, List.mem_cons_self, h4⟩
      · exact .inr ⟨b, List.mem_cons_of_mem _ hb, h4⟩

namespace Demo

/-- settings for the witnesses: tolerance 1/10, constant penalty 1 -/
def extSettings : Settings ℚ where
  targetTol := 1 / 10
  muInit := 1
  rhoInit := 0
  muLower := 1
  muUpper := 1
  innerTol0 := 1
  primTol0 := 1
  innerTolMin := 1 / 100
  pdalBeta := 1 / 2
  primAlpha := 1
  primBeta := 1
  dualAlpha := 1
  dualBeta := 1
  muUpdateFactor := 1 / 10
  rhoUpdateFactor := 1
  maxIters := 5
  maxAlIters := 3
  mode := .newton
  kkt := .classic
  pow _ _ := 1

/-- zero gradient and Jacobian; cost value and constraint values as given; no step is ever computed -/
def extConst {m : ℕ} (v : ExtScalar ℚ) (c : Fin m → ExtScalar ℚ) (sets : Fin m → ExtSet ℚ) : ExtCtx Unit ℚ Unit 1 m where
  eval _ := some (v, c)
  grad _ _ := fin 0
  jac _ _ _ := fin 0
  proxGrad _ _ _ _ := fin 0
  sets := sets
  blocks := List.ofFn fun i => [i]
  norm := seqNorm
  matrixOk _ := true
  updHess _ _ _ _ := ()
  enterInner _ := ()
  step _ := none

/-- any state -/
def extState (m : ℕ) : ExtSt Unit ℚ Unit m where
  xOpt := ()
  lamsOpt _ := fin 0
  lamsPrev _ := fin 0
  lamsPlus _ := fin 0
  lamsPdal _ := fin 0
  mu := 1
  rho := 0
  primTol := 1
  innerTol := 1
  target := ()
  converged := .success
  numIters := 0
  alIters := 0
  prim := fin 0
  dual := fin 0
  value := fin 0
  resMu := 0
  hidden := ()

end Demo

open Demo

/-- **C98 is false of the cost value**: a cost that returns NaN at a point where gradient and constraints pass the test is reported as
SUCCESS, with NaN as the value. -/
theorem C98_value_false : ∃ st', extSolve (extConst nan ![fin 0] fun _ => .equality) extSettings (extState 1) () (fun _ => fin 0) = some st' ∧
    st'.converged = .success ∧ st'.value = nan := by
  obtain ⟨st', h1, h2, -, h3, -⟩ := extSolve_first (extConst nan ![fin 0] fun _ => .equality) extSettings (by decide) (by decide) (extState 1) ()
    (fun _ => fin 0) _ rfl (by decide +kernel) rfl (by decide +kernel)
  exact ⟨st', h1, h2, h3⟩

/-- **C98 is false of inequality constraints with value `-∞`**: with the constraint values `(0, -∞)` of two inequalities the solver
reports SUCCESS; with the two constraints exchanged it never does, from any start and with any settings (the violation computed for
`-∞` is NaN, and whether a NaN shows in a maximum depends on its position). -/
theorem C98_order_false :
    (∃ st', extSolve (extConst (fin 0) ![fin 0, negInf] fun _ => .negOrthant) extSettings (extState 2) () (fun _ => fin 0) = some st' ∧
      st'.converged = .success) ∧
    ∀ S st lams0 st', extSolve (extConst (fin 0) ![negInf, fin 0] fun _ => .negOrthant) S st () lams0 = some st' →
      st'.converged ≠ .success := by
  constructor
  · obtain ⟨st', h1, h2, -⟩ := extSolve_first (extConst (fin 0) ![fin 0, negInf] fun _ => .negOrthant) extSettings (by decide) (by decide)
      (extState 2) () (fun _ => fin 0) _ rfl (by decide +kernel) rfl (by decide +kernel)
    exact ⟨st', h1, h2⟩
  · intro S st lams0 st' h hs
    obtain ⟨s, ⟨hc, v, c, he, hv, hcs, hpr, hdu⟩, h1, h2, h3, h4, h5, h6⟩ :=
      extOuter_spec _ S _ st' (.inl rfl) (by simp) (fun hp => hp.1) h hs
    cases he
    obtain ⟨l0, hl0⟩ := hc.lam 0
    have hrow : extRowErr (extConst (fin 0) ![negInf, fin 0] fun _ => .negOrthant) s.resMu ![negInf, fin 0] s.lamsOpt 0 = nan := by
      unfold extRowErr
      rw [hl0]
      rfl
    have hnan : s.prim = nan := by
      rw [hpr]
      unfold extPrim
      simp only [extConst, List.ofFn_succ, List.ofFn_zero, List.map_cons, List.map_nil, seqNorm, List.foldl_nil, List.foldl_cons] at hrow ⊢
      rw [hrow]
      rfl
    rw [hnan] at h5
    simp [stdMax, lt] at h5

/-! ### Hypotheses met -/

namespace Demo

/-- `x ≥ 3` written as the box `[3, +∞)`, with a cost that is not defined (NaN, with its gradient) for negative `x`; the step goes to
the boundary -/
def extBox : ExtCtx ℚ ℚ Unit 1 1 where
  eval x := some (if x < 0 then nan else fin 7, fun _ => fin x)
  grad x _ := if x < 0 then nan else fin 0
  jac _ _ _ := fin 1
  proxGrad _ _ _ _ := fin 0
  sets _ := .box (fin 3) posInf
  blocks := [[0]]
  norm := seqNorm
  matrixOk _ := true
  updHess _ _ _ _ := ()
  enterInner _ := ()
  step i := some ⟨3, i.lam, fin 0, i.lam, i.lam, ()⟩

def extBoxState : ExtSt ℚ ℚ Unit 1 where
  xOpt := 0
  lamsOpt _ := fin 0
  lamsPrev _ := fin 0
  lamsPlus _ := fin 0
  lamsPdal _ := fin 0
  mu := 1
  rho := 0
  primTol := 1
  innerTol := 1
  target := 0
  converged := .success
  numIters := 0
  alIters := 0
  prim := nan
  dual := nan
  value := nan
  resMu := 1
  hidden := ()

end Demo

/-- from `x = 0` the run takes a step and returns SUCCESS at `x = 3` -/
theorem extBox_run : ∃ st', extSolve extBox extSettings extBoxState 0 (fun _ => fin 0) = some st' ∧ st'.converged = .success ∧ st'.xOpt = 3 := by
  obtain ⟨st', h1, h2, h3, -⟩ := extOuter_success extBox extSettings
    { extTolFailure extSettings { extBoxState with
        mu := 1, rho := 0, xOpt := (0 : ℚ), lamsOpt := fun _ => fin 0, lamsPrev := fun _ => fin 0 } with
      converged := .uninit, numIters := 0, alIters := 0 } _ ⟨by decide, by decide⟩
    ((extInner_step _ _ _ _ _ rfl (by decide +kernel) rfl (by decide +kernel) rfl (by decide +kernel) (by decide)).trans
      (extInner_stop _ _ _ _ rfl (by decide +kernel) rfl (by decide +kernel))) (by decide +kernel)
  exact ⟨st', h1, h2, h3⟩

/-- the hypotheses of `C98_success_finite_partial` and `C98_certificate` are met by that run -/
example : GoodNorm extBox.norm ∧ (∀ i, ∃ b ∈ extBox.blocks, i ∈ b) ∧ (∀ i, ExtProper (extBox.sets i)) ∧ extSettings.mode = .newton ∧
    (0 < extSettings.muInit ∧ 0 < extSettings.muLower) ∧
    ∃ st', extSolve extBox extSettings extBoxState 0 (fun _ => fin 0) = some st' ∧ st'.converged = .success ∧
      ∀ v c, extBox.eval st'.xOpt = some (v, c) → ∀ i, c i ≠ negInf := by
  obtain ⟨st', h1, h2, -⟩ := extBox_run
  refine ⟨seqNorm_good, fun i => ⟨[0], by simp [extBox], by simp [Subsingleton.elim i 0]⟩, fun i => ⟨3, by decide +kernel, by decide +kernel⟩, rfl,
    by decide +kernel, st', h1, h2, ?_⟩
  intro v c h i
  have := congrArg Prod.snd (Option.some.inj h)
  simp only at this
  rw [← this]
  simp

/-- the hypotheses of `C98_rejects` are met: the gradient is NaN at `x = -1`, and the call throws -/
example : extSolve extBox extSettings extBoxState (-1) (fun _ => fin 0) = none :=
  C98_rejects extBox extSettings (by decide) (by decide) extBoxState (-1) _ (.inl ⟨0, fun a => by simp [extBox]⟩)

/-- the hypotheses of `C98_agrees` are met by the equality-constrained demo problem of `Props/Solver.lean` -/
example (x0 l0 : ℚ) : extSolve (extLift eqProblem extSettings (fun _ => (.equality, 0)) [[0]] seqNorm) extSettings
    (extLiftSt (ready eqProblem extSettings)) x0 (fun _ => fin l0) =
      (solve eqProblem extSettings (ready eqProblem extSettings) x0 1 fun _ => l0).toOption.map extLiftSt :=
  C98_agrees eqProblem extSettings _ rfl [[0]] (fun i => ⟨[0], by simp, by simp [Subsingleton.elim i 0]⟩) seqNorm seqNorm_good _ rfl x0 _

/-- the hypothesis of `C98_bad_step` is met, and the call throws, if the merit value of the step is NaN -/
example : (∀ i o, ({ extBox with step := fun i => some ⟨3, i.lam, nan, i.lam, i.lam, ()⟩ } : ExtCtx ℚ ℚ Unit 1 1).step i = some o →
    (∃ k, ∀ a, o.lam k ≠ fin a) ∨ ∀ a, o.merit ≠ fin a) := by
  intro i o h
  cases h
  exact .inr fun a => by simp

/-- the hypothesis of `C98_bad_matrix` is met -/
example : extSolve { extBox with matrixOk := fun _ => false } extSettings extBoxState 0 (fun _ => fin 0) = none :=
  C98_bad_matrix _ _ (by decide) (by decide) _ _ _ rfl

end ProxNLP
