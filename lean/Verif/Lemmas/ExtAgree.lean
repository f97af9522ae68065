import Verif.Lemmas.ExtSolver
import Verif.Lemmas.Math
import Mathlib.Algebra.BigOperators.Fin

/-! The loop with non-finite values agrees with the loop of `Model/Solver.lean` on finite data. -/

set_option linter.unusedSectionVars false
namespace ProxNLP

open ExtScalar Spec

variable {X K H : Type} {n m : ℕ} [Field K] [LinearOrder K] [IsStrictOrderedRing K]

theorem ext_stdMax (a b : K) : stdMax (fin a) (fin b) = fin (max a b) := by
  unfold stdMax
  simp only [lt]
  by_cases h : a < b
  · simp [h, max_eq_right h.le]
  · simp [h, max_eq_left (not_lt.1 h)]

theorem ext_stdMin (a b : K) : stdMin (fin a) (fin b) = fin (min a b) := by
  unfold stdMin
  simp only [lt]
  by_cases h : b < a
  · simp [h, min_eq_right h.le]
  · simp [h, min_eq_left (not_lt.1 h)]

theorem ext_sign (a : K) : ExtScalar.sign (fin a) = fin (signK a) := by
  unfold ExtScalar.sign signK
  simp only [lt]
  rcases lt_trichotomy a 0 with h | h | h
  · simp [h, not_lt.2 h.le]
  · simp [h]
  · simp [h, not_lt.2 h.le]

theorem ext_leaf_proj (leaf : LeafSet K × ℕ) (mu z : K) : (extLeaf leaf).proj mu (fin z) = fin (leaf.1.projAt mu leaf.2 z) := by
  obtain ⟨s, k⟩ := leaf
  cases s with
  | equality => rfl
  | negOrthant => exact ext_stdMin _ _
  | box lo hi =>
    show stdMax (stdMin (fin z) (fin (hi k))) (fin (lo k)) = _
    rw [ext_stdMin, ext_stdMax]
    rfl
  | l1 =>
    show ExtScalar.sign (fin z) * stdMax (fin |z| - fin mu) (fin 0) = _
    rw [ext_fin_sub, ext_stdMax, ext_sign]
    rfl

theorem ext_leaf_normal (leaf : LeafSet K × ℕ) (mu z : K) : (extLeaf leaf).normal mu (fin z) = fin (leaf.1.normalAt mu leaf.2 z) := by
  obtain ⟨s, k⟩ := leaf
  cases s with
  | equality => rfl
  | negOrthant => exact ext_stdMax _ _
  | box lo hi =>
    show fin z - stdMax (stdMin (fin z) (fin (hi k))) (fin (lo k)) = _
    rw [ext_stdMin, ext_stdMax, ext_fin_sub]
    rfl
  | l1 =>
    show fin z - ExtScalar.sign (fin z) * stdMax (fin |z| - fin mu) (fin 0) = _
    rw [ext_fin_sub, ext_stdMax, ext_sign, ext_fin_mul, ext_fin_sub]
    rfl

/-- the norm of a list of numbers -/
theorem goodNorm_le {nrm : List (ExtScalar K) → ExtScalar K} (hn : GoodNorm nrm) (l : List K) :
    ∃ r, nrm (l.map fin) = fin r ∧ ∀ t, r ≤ t ↔ 0 ≤ t ∧ ∀ a ∈ l, |a| ≤ t := by
  obtain ⟨r, h1, h2, h3, h4⟩ := hn l
  refine ⟨r, h1, fun t => ⟨fun h => ⟨h2.trans h, fun a ha => (h3 a ha).trans h⟩, fun ⟨h, h'⟩ => ?_⟩⟩
  rcases h4 with h4 | ⟨a, ha, h4⟩
  · rw [h4]; exact h
  · rw [h4]; exact h' a ha

theorem eq_of_le_iff' {a b : K} (h : ∀ t, a ≤ t ↔ b ≤ t) : a = b :=
  le_antisymm ((h b).2 le_rfl) ((h a).1 le_rfl)

theorem goodNorm_ofFn {nrm : List (ExtScalar K) → ExtScalar K} (hn : GoodNorm nrm) {k : ℕ} (f : Fin k → K) :
    nrm (List.ofFn fun i => fin (f i)) = fin (inftyNorm f) := by
  obtain ⟨r, h1, h2⟩ := goodNorm_le hn (List.ofFn f)
  rw [List.map_ofFn] at h1
  have : r = inftyNorm f := eq_of_le_iff' fun t => by rw [h2, inftyNorm_le_iff]; simp [List.mem_ofFn]
  rw [← this, ← h1]
  rfl

theorem goodNorm_append {nrm : List (ExtScalar K) → ExtScalar K} (hn : GoodNorm nrm) {k l : ℕ} (f : Fin k → K) (g : Fin l → K) :
    nrm ((List.ofFn fun i => fin (f i)) ++ List.ofFn fun i => fin (g i)) = fin (max (inftyNorm f) (inftyNorm g)) := by
  obtain ⟨r, h1, h2⟩ := goodNorm_le hn (List.ofFn f ++ List.ofFn g)
  rw [List.map_append, List.map_ofFn, List.map_ofFn] at h1
  have : r = max (inftyNorm f) (inftyNorm g) := eq_of_le_iff' fun t => by
    rw [h2, max_le_iff, inftyNorm_le_iff, inftyNorm_le_iff]
    simp only [List.mem_append, List.mem_ofFn]
    constructor
    · rintro ⟨h, h'⟩
      exact ⟨⟨h, fun i => h' _ (.inl ⟨i, rfl⟩)⟩, h, fun i => h' _ (.inr ⟨i, rfl⟩)⟩
    · rintro ⟨⟨h, h1⟩, -, h2⟩
      refine ⟨h, ?_⟩
      rintro a (⟨i, rfl⟩ | ⟨i, rfl⟩)
      · exact h1 i
      · exact h2 i
  rw [← this, ← h1]
  rfl

theorem goodNorm_blocks {nrm : List (ExtScalar K) → ExtScalar K} (hn : GoodNorm nrm) (blocks : List (List (Fin m)))
    (hb : ∀ i, ∃ b ∈ blocks, i ∈ b) (f : Fin m → K) :
    nrm (blocks.map fun b => nrm (b.map fun i => fin (f i))) = fin (inftyNorm f) := by
  choose r hr1 hr2 using fun b : List (Fin m) => goodNorm_le hn (b.map f)
  have e : ∀ b : List (Fin m), nrm (b.map fun i => fin (f i)) = fin (r b) := fun b => by
    rw [← hr1 b, List.map_map]; rfl
  have r0 : ∀ b, 0 ≤ r b := fun b => ((hr2 b _).1 le_rfl).1
  obtain ⟨R, h1, h2⟩ := goodNorm_le hn (blocks.map r)
  have : R = inftyNorm f := eq_of_le_iff' fun t => by
    rw [h2, inftyNorm_le_iff]
    constructor
    · rintro ⟨h, h'⟩
      refine ⟨h, fun i => ?_⟩
      obtain ⟨b, hb1, hb2⟩ := hb i
      have := h' _ (List.mem_map_of_mem hb1)
      rw [abs_of_nonneg (r0 b)] at this
      exact ((hr2 b t).1 this).2 _ (List.mem_map_of_mem hb2)
    · rintro ⟨h, h'⟩
      refine ⟨h, fun a ha => ?_⟩
      obtain ⟨b, -, rfl⟩ := List.mem_map.1 ha
      rw [abs_of_nonneg (r0 b)]
      refine (hr2 b t).2 ⟨h, fun a ha => ?_⟩
      obtain ⟨i, -, rfl⟩ := List.mem_map.1 ha
      exact h' i
  rw [← this, ← h1, List.map_map]
  congr 1
  exact List.map_congr_left fun b _ => e b

/-- the values computed at the top of the loop -/
def extLiftEval (ev : EvalOut K n m) : ExtEval K n m where
  value := fin ev.value
  lamsPlus i := fin (ev.lamsPlus i)
  lamsPdal i := fin (ev.lamsPdal i)
  rhsTop j := fin (ev.rhsTop j)
  rhsBot i := fin (ev.rhsBot i)
  prim := fin ev.prim
  dual := fin ev.dual
  innerCrit := fin ev.innerCrit

theorem extEval_lift (P : Ctx X K H n m) (S : Settings K) (leaf : Fin m → LeafSet K × ℕ) (hleaf : P.sets = StackedSet.ofLeaves leaf)
    (blocks : List (List (Fin m))) (hb : ∀ i, ∃ b ∈ blocks, i ∈ b) (nrm : List (ExtScalar K) → ExtScalar K) (hn : GoodNorm nrm)
    (mu rho : K) (target x : X) (lam lamPrev : Fin m → K) :
    extEval (extLift P S leaf blocks nrm) S mu rho target x (fun i => fin (lam i)) (fun i => fin (lamPrev i)) =
      (evalAt P S mu mu rho target x lam lamPrev).map extLiftEval := by
  unfold extEval evalAt
  show ((P.eval x).map _).map _ = _
  rw [Option.map_map, Option.map_map]
  congr 1
  funext fc
  have hsum : ∀ j, (List.ofFn fun i => (fin (P.jac x i j) * fin (lam i) : ExtScalar K)).sum = fin (∑ i, P.jac x i j * lam i) := by
    intro j
    rw [← List.sum_ofFn, ← ext_sum_map, List.map_ofFn]
    rfl
  have htop0 : (fun j => fin (P.grad x j) + (List.ofFn fun i => (fin (P.jac x i j) * fin (lam i) : ExtScalar K)).sum) =
      fun j => fin (P.grad x j + ∑ i, P.jac x i j * lam i) := by
    funext j; rw [hsum]; rfl
  have hprim : extPrim (extLift P S leaf blocks nrm) mu (fun i => fin (fc.2 i)) (fun i => fin (lam i)) =
      fin (primResidual P.sets mu mu fc.2 lam) := by
    unfold extPrim primResidual
    rw [hleaf]
    rw [← goodNorm_blocks hn blocks hb]
    show nrm (blocks.map _) = _
    congr 2
    funext b
    show nrm _ = _
    congr 2
    funext i
    show fin (fc.2 i) - (extLeaf (leaf i)).proj mu (fin (fc.2 i) + fin mu * fin (lam i)) = _
    rw [ext_fin_mul, ext_fin_add, ext_leaf_proj, ext_fin_sub]
    rfl
  have hplus : ∀ i, fin (1 / mu) * (extLeaf (leaf i)).normal mu (fin (fc.2 i) + fin mu * fin (lamPrev i)) =
      fin (1 / mu * P.sets.normal mu (fun i => fc.2 i + mu * lamPrev i) i) := by
    intro i
    rw [hleaf, ext_fin_mul, ext_fin_add, ext_leaf_normal, ext_fin_mul]
    rfl
  have hpdal : ∀ i, (extLeaf (leaf i)).normal mu (fin (fc.2 i) + fin mu * fin (lamPrev i) - fin (1 / 2 * mu) * fin (lam i)) *
      fin (1 / mu / S.pdalBeta) =
      fin (P.sets.normal mu (fun i => fc.2 i + mu * lamPrev i - 1 / 2 * mu * lam i) i * (1 / mu / S.pdalBeta)) := by
    intro i
    rw [hleaf, ext_fin_mul, ext_fin_add, ext_fin_mul, ext_fin_sub, ext_leaf_normal, ext_fin_mul]
    rfl
  simp only [Function.comp, extLift, EvalOut.innerCrit, dualResidual, extLiftEval] at hprim ⊢
  simp only [hplus, hpdal, hsum, ext_fin_add (P.grad x _)]
  rw [hprim, goodNorm_ofFn hn]
  by_cases hr : 0 < rho <;> cases S.kkt <;>
    simp only [hr, if_true, if_false, ext_fin_sub, ext_fin_mul, ext_fin_add, goodNorm_append hn]

/-! ### simulation -/

theorem extAfterEval_lift (P : Ctx X K H n m) (S : Settings K) (leaf : Fin m → LeafSet K × ℕ)
    (blocks : List (List (Fin m))) (nrm : List (ExtScalar K) → ExtScalar K) (st : St X K H m) (ev : EvalOut K n m)
    (hev : evalAt P S st.mu st.setMu st.rho st.target st.xOpt st.lamsOpt st.lamsPrev = some ev) :
    extAfterEval (extLift P S leaf blocks nrm) (extLiftSt st) (extLiftEval ev) = extLiftSt (afterEval P st ev) := by
  have hg : ev.grad = P.grad st.xOpt := by
    unfold evalAt at hev
    cases he : P.eval st.xOpt with
    | none => rw [he] at hev; cases hev
    | some fc => rw [he] at hev; cases hev; rfl
  simp only [extAfterEval, extLiftSt, extLiftEval, afterEval, extLift, extToK, hg]

theorem extInner_lift (P : Ctx X K H n m) (S : Settings K) (leaf : Fin m → LeafSet K × ℕ) (hleaf : P.sets = StackedSet.ofLeaves leaf)
    (blocks : List (List (Fin m))) (hb : ∀ i, ∃ b ∈ blocks, i ∈ b) (nrm : List (ExtScalar K) → ExtScalar K) (hn : GoodNorm nrm) :
    ∀ st : St X K H m, st.setMu = st.mu →
      extInner (extLift P S leaf blocks nrm) S (extLiftSt st) = (innerLoop P S st).toOption.map extLiftSt ∧
      ∀ st', innerLoop P S st = .ok st' → st'.setMu = st'.mu := by
  intro st
  induction hk : S.maxIters - st.numIters using Nat.strong_induction_on generalizing st with
  | _ k ih =>
    intro hmu
    have hE := extEval_lift P S leaf hleaf blocks hb nrm hn st.mu st.rho st.target st.xOpt st.lamsOpt st.lamsPrev
    rw [extInner, innerLoop]
    rw [show extEval (extLift P S leaf blocks nrm) S (extLiftSt st).mu (extLiftSt st).rho (extLiftSt st).target (extLiftSt st).xOpt
      (extLiftSt st).lamsOpt (extLiftSt st).lamsPrev = _ from hE]
    cases hev : evalAt P S st.mu st.setMu st.rho st.target st.xOpt st.lamsOpt st.lamsPrev with
    | none =>
      rw [hmu] at hev
      rw [hev]
      exact ⟨rfl, fun st' h => by cases h⟩
    | some ev =>
      have haft := extAfterEval_lift P S leaf blocks nrm st ev hev
      rw [hmu] at hev
      rw [hev]
      simp only [Option.map_some]
      have hok : (extLiftEval ev).rhsOk = true := by
        have : checkValue (List.ofFn (fun j => fin (ev.rhsTop j)) ++ List.ofFn fun i => fin (ev.rhsBot i)) = false :=
          (C66_check _).2.1.2 ⟨List.ofFn ev.rhsTop ++ List.ofFn ev.rhsBot, by rw [List.map_append, List.map_ofFn, List.map_ofFn]; rfl⟩
        exact congrArg (! ·) this
      rw [if_neg (by rw [hok]; simp [extLift])]
      rw [haft]
      by_cases ht : ev.innerCrit ≤ st.innerTol ∨ ev.outerCrit ≤ S.targetTol
      · rw [if_pos ht, if_pos (by
          simp only [extLiftEval, extLiftSt, ext_stdMax, le, decide_eq_true_eq]
          exact ht)]
        exact ⟨rfl, fun st' h => by cases h; exact hmu⟩
      · rw [if_neg ht, if_neg (by
          simp only [extLiftEval, extLiftSt, ext_stdMax, le, decide_eq_true_eq]
          exact ht)]
        have hstep : (extLift P S leaf blocks nrm).step ⟨(extLiftSt (afterEval P st ev)).xOpt, (extLiftSt (afterEval P st ev)).lamsOpt,
            (extLiftSt (afterEval P st ev)).lamsPrev, (extLiftSt (afterEval P st ev)).target, (extLiftSt (afterEval P st ev)).mu,
            (extLiftSt (afterEval P st ev)).rho, (extLiftSt (afterEval P st ev)).hidden⟩ =
            (P.step (stepIn (afterEval P st ev) ev)).toOption.map fun o =>
              ⟨o.x, fun k => fin (o.lam k), fin o.merit, fun k => fin (o.lamsPlus k), fun k => fin (o.lamsPdal k), o.hidden⟩ := by
          have e1 : evalAt P S (afterEval P st ev).mu (afterEval P st ev).mu (afterEval P st ev).rho (afterEval P st ev).target
            (afterEval P st ev).xOpt (afterEval P st ev).lamsOpt (afterEval P st ev).lamsPrev = some ev := hev
          have e2 : (stepIn (afterEval P st ev) ev) = ⟨(afterEval P st ev).xOpt, (afterEval P st ev).lamsOpt, (afterEval P st ev).lamsPrev,
              (afterEval P st ev).target, (afterEval P st ev).mu, (afterEval P st ev).mu, (afterEval P st ev).rho,
              (afterEval P st ev).hidden, ev⟩ := by
            unfold stepIn
            rw [show (afterEval P st ev).setMu = (afterEval P st ev).mu from hmu]
          simp only [extLift, extLiftSt, extToK, e1]
          rw [e2]
          cases P.step _ <;> rfl
        rw [hstep]
        cases hs : P.step (stepIn (afterEval P st ev) ev) with
        | error e => exact ⟨rfl, fun st' h => by cases h⟩
        | ok o =>
          simp only [Except.toOption, Option.map_some]
          rw [if_neg (by simp [checkValue_ofFn, checkScalar])]
          by_cases hi : st.numIters + 1 ≥ S.maxIters
          · rw [if_pos hi, if_pos (by exact hi)]
            exact ⟨rfl, fun st' h => by cases h; exact hmu⟩
          · rw [if_neg hi, if_neg (by exact hi)]
            have key := ih (S.maxIters - (st.numIters + 1)) (by omega)
              { acceptStep (afterEval P st ev) o with numIters := st.numIters + 1 } rfl hmu
            exact key

theorem extAfterInner_lift (S : Settings K) (st : St X K H m) (hmu : st.setMu = st.mu) :
    extAfterInner S (extLiftSt st) = extLiftSt (afterInner S st) ∧ (afterInner S st).setMu = (afterInner S st).mu := by
  unfold extAfterInner afterInner
  by_cases h : st.prim < st.primTol
  · simp only [extLiftSt, lt, h, decide_true, if_true]
    refine ⟨?_, hmu⟩
    cases hm : S.mode <;> simp only [updateToleranceSuccess, acceptMultipliers, tolerancePostUpdate, extTolSuccess, extTolPost, hm]
  · simp only [extLiftSt, lt, h, decide_false, if_false]
    unfold updatePenalty
    by_cases h2 : st.mu = S.muLower
    · simp [updateToleranceFailure, tolerancePostUpdate, extTolFailure, extTolPost, setPenalty, h2]
    · simp [updateToleranceFailure, tolerancePostUpdate, extTolFailure, extTolPost, setPenalty, h2]

theorem extOuter_lift (P : Ctx X K H n m) (S : Settings K) (leaf : Fin m → LeafSet K × ℕ) (hleaf : P.sets = StackedSet.ofLeaves leaf)
    (blocks : List (List (Fin m))) (hb : ∀ i, ∃ b ∈ blocks, i ∈ b) (nrm : List (ExtScalar K) → ExtScalar K) (hn : GoodNorm nrm) :
    ∀ st : St X K H m, st.setMu = st.mu →
      extOuter (extLift P S leaf blocks nrm) S (extLiftSt st) = (outerLoop P S st).toOption.map extLiftSt := by
  intro st
  induction hk : S.maxAlIters - st.alIters using Nat.strong_induction_on generalizing st with
  | _ k ih =>
    intro hmu
    rw [extOuter, outerLoop]
    by_cases h0 : st.numIters < S.maxIters ∧ st.alIters < S.maxAlIters
    · rw [if_pos h0, if_pos (by exact h0)]
      obtain ⟨hi1, hi2⟩ := extInner_lift P S leaf hleaf blocks hb nrm hn (startOuter P st) hmu
      rw [show ({ extLiftSt st with resMu := (extLiftSt st).mu, hidden := (extLift P S leaf blocks nrm).enterInner (extLiftSt st).hidden } :
        ExtSt X K H m) = extLiftSt (startOuter P st) from rfl, hi1]
      cases hi : innerLoop P S (startOuter P st) with
      | error e => rfl
      | ok s =>
        obtain ⟨a1, a2⟩ := extAfterInner_lift S s (hi2 s hi)
        simp only [Except.toOption, Option.map_some]
        rw [a1]
        by_cases ht : max (afterInner S s).prim (afterInner S s).dual < S.targetTol
        · rw [if_pos ht, if_pos (by simp only [extLiftSt, ext_stdMax, lt, decide_eq_true_eq]; exact ht)]
          rfl
        · rw [if_neg ht, if_neg (by simp only [extLiftSt, ext_stdMax, lt, decide_eq_true_eq]; exact ht)]
          exact ih (S.maxAlIters - (st.alIters + 1)) (by omega)
            { setProxParameter (afterInner S s) ((afterInner S s).rho * S.rhoUpdateFactor) with alIters := st.alIters + 1 } rfl a2
    · rw [if_neg h0, if_neg (by exact h0)]
      rfl

end ProxNLP
