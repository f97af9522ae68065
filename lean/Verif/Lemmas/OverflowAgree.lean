import Verif.Lemmas.Overflow
import Verif.Lemmas.ExtAgree
import Mathlib.Order.Filter.AtTopBot.Basic
import Mathlib.Order.Filter.Finite

/-! Lemmas for C114: with a large enough largest number the loop with overflow is the loop without. -/

set_option linter.unusedSectionVars false

namespace ProxNLP

open ExtScalar Spec Filter

variable {X K H : Type} {n m : ℕ} [Field K] [LinearOrder K] [IsStrictOrderedRing K]

/-- the arithmetic with largest number `M` -/
def OvArith.of (R : Rounding K) (M : K) : OvArith K := { R with big := M }

theorem rd_event (R : Rounding K) (x : K) : ∀ᶠ M in atTop, (OvArith.of R M).rd (fin x) = fin (R.rnd x) := by
  filter_upwards [eventually_ge_atTop |R.rnd x|] with M hM
  have h1 := (le_abs_self _).trans hM
  have h2 := (neg_le_abs _).trans hM
  show (if M < R.rnd x then posInf else if R.rnd x < -M then negInf else fin (R.rnd x)) = _
  rw [if_neg (not_lt.2 h1), if_neg (not_lt.2 (by linarith))]

theorem ovShift_event (R : Rounding K) (b : Bool) (mu c lam : K) :
    ∀ᶠ M in atTop, ovShift (OvArith.of R M) b mu (fin c) (fin lam) = fin (flShift R b mu c lam) := by
  filter_upwards [rd_event R (c + mu * lam), rd_event R (mu * lam), rd_event R (c + R.rnd (mu * lam))] with M h1 h2 h3
  unfold ovShift flShift
  rw [ext_fin_mul, ext_fin_add, h1, h2, ext_fin_add, h3]
  split_ifs <;> rfl

theorem ovShiftPdal_event (R : Rounding K) (b : Bool) (mu lam s : K) :
    ∀ᶠ M in atTop, ovShiftPdal (OvArith.of R M) b mu (fin lam) (fin s) = fin (flShiftPdal R b mu lam s) := by
  filter_upwards [rd_event R (s - R.rnd (1 / 2 * mu) * lam), rd_event R (R.rnd (1 / 2 * mu) * lam),
    rd_event R (s - R.rnd (R.rnd (1 / 2 * mu) * lam))] with M h1 h2 h3
  unfold ovShiftPdal flShiftPdal
  rw [show (OvArith.of R M).rnd = R.rnd from rfl, ext_fin_mul, ext_fin_sub, h1, h2, ext_fin_sub, h3]
  split_ifs <;> rfl

theorem ovProj_event (R : Rounding K) (leaf : LeafSet K × ℕ) (mu z : K) :
    ∀ᶠ M in atTop, (extLeaf leaf).ovProj (OvArith.of R M) mu (fin z) = fin (leaf.1.flProjAt R mu leaf.2 z) := by
  obtain ⟨s, k⟩ := leaf
  filter_upwards [rd_event R (|z| - mu)] with M h1
  cases s with
  | equality => rfl
  | negOrthant => exact ext_stdMin _ _
  | box lo hi =>
    show stdMax (stdMin (fin z) (fin (hi k))) (fin (lo k)) = _
    rw [ext_stdMin, ext_stdMax]
    rfl
  | l1 =>
    show ExtScalar.sign (fin z) * stdMax ((OvArith.of R M).rd (fin |z| - fin mu)) (fin 0) = _
    rw [ext_fin_sub, h1, ext_stdMax, ext_sign]
    rfl

theorem ovNormal_event (R : Rounding K) (leaf : LeafSet K × ℕ) (mu z : K) :
    ∀ᶠ M in atTop, (extLeaf leaf).ovNormal (OvArith.of R M) mu (fin z) = fin (leaf.1.flNormalAt R mu leaf.2 z) := by
  obtain ⟨s, k⟩ := leaf
  cases s with
  | equality => exact Eventually.of_forall fun _ => rfl
  | negOrthant => exact Eventually.of_forall fun _ => ext_stdMax _ _
  | box lo hi =>
    filter_upwards [rd_event R (z - max (min z (hi k)) (lo k))] with M h1
    show (OvArith.of R M).rd (fin z - stdMax (stdMin (fin z) (fin (hi k))) (fin (lo k))) = _
    rw [ext_stdMin, ext_stdMax, ext_fin_sub, h1]
    rfl
  | l1 =>
    filter_upwards [rd_event R (|z| - mu), rd_event R (z - signK z * max (R.rnd (|z| - mu)) 0)] with M h1 h2
    show (OvArith.of R M).rd (fin z - ExtScalar.sign (fin z) * stdMax ((OvArith.of R M).rd (fin |z| - fin mu)) (fin 0)) = _
    rw [ext_fin_sub, h1, ext_stdMax, ext_sign, ext_fin_mul, ext_fin_sub, h2]
    rfl

theorem ovRowErr_event (R : Rounding K) (leaf : LeafSet K × ℕ) (b : Bool) (mu c lam : K) :
    ∀ᶠ M in atTop, ovRowErr (OvArith.of R M) (extLeaf leaf) b mu (fin c) (fin lam) = fin (flRowErr R leaf b mu c lam) := by
  filter_upwards [ovShift_event R b mu c lam, ovProj_event R leaf mu (flShift R b mu c lam),
    rd_event R (c - leaf.1.flProjAt R mu leaf.2 (flShift R b mu c lam))] with M h1 h2 h3
  unfold ovRowErr flRowErr
  rw [h1, h2, ext_fin_sub, h3]

theorem ovEval_event {I : Type} (R : Rounding K) (g : K) (f : I → K × K) (t : SumTree I) :
    ∀ᶠ M in atTop, t.ovEval (OvArith.of R M) (fin g) (fun i => (fin (f i).1, fin (f i).2)) = fin (t.eval R g f) := by
  induction t with
  | zero => exact Eventually.of_forall fun _ => rfl
  | init => exact Eventually.of_forall fun _ => rfl
  | prod i =>
    filter_upwards [rd_event R ((f i).1 * (f i).2)] with M h
    simp only [SumTree.ovEval, SumTree.eval]
    rw [ext_fin_mul, h]
  | add s t ihs iht =>
    filter_upwards [ihs, iht, rd_event R (s.eval R g f + t.eval R g f)] with M h1 h2 h3
    simp only [SumTree.ovEval, SumTree.eval]
    rw [h1, h2, ext_fin_add, h3]
  | fma i t iht =>
    filter_upwards [iht, rd_event R ((f i).1 * (f i).2 + t.eval R g f)] with M h2 h3
    simp only [SumTree.ovEval, SumTree.eval]
    rw [h2, ext_fin_mul, ext_fin_add, h3]

theorem largest_good {nrm : List (ExtScalar K) → ExtScalar K} (h : LargestNorm nrm) : GoodNorm nrm := by
  intro l
  have hnan : (nan : ExtScalar K) ∉ l.map fin := fun h => by
    obtain ⟨a, -, ha⟩ := List.mem_map.1 h
    cases ha
  obtain ⟨h1, h2⟩ := h _ hnan
  have key : ∃ r, nrm (l.map fin) = fin r ∧ 0 ≤ r ∧ (r = 0 ∨ ∃ a ∈ l, r = |a|) := by
    rcases h2 with h2 | ⟨e, he, h2⟩
    · exact ⟨0, h2, le_rfl, .inl rfl⟩
    · obtain ⟨a, ha, rfl⟩ := List.mem_map.1 he
      exact ⟨|a|, h2, abs_nonneg a, .inr ⟨a, ha, rfl⟩⟩
  obtain ⟨r, h3, h4, h5⟩ := key
  refine ⟨r, h3, h4, fun a ha => ?_, h5⟩
  have := h1 _ (List.mem_map_of_mem (f := fin) ha)
  rw [h3] at this
  exact of_decide_eq_true this

theorem checkValue_fins (l : List K) : checkValue (l.map fin) = false := (C66_check _).2.1.2 ⟨l, rfl⟩

section loop
variable {R : Rounding K} {S : Settings K} {Q : OvCtx X K H n m} {P : FlCtx X K H n m} {prox : K → X → X → Fin n → K}

/-- one evaluation without overflow -/
theorem ovEvalSt_event (hW : WithoutOverflow R S Q P prox) (hn : LargestNorm Q.norm) (hb : ∀ i, ∃ b ∈ Q.blocks, i ∈ b) (st : FlSt X K H m)
    (v : K) (c : Fin m → K) (he : P.eval st.xOpt = some (v, c)) :
    ∀ᶠ M in atTop, ∃ ev : ExtEval K n m, ovEval (OvArith.of R M) Q S st.hidden st.mu st.rho st.target st.xOpt (fun k => fin (st.lamsOpt k))
      (fun k => fin (st.lamsPrev k)) = some ev ∧ ev.rhsOk = true ∧ ev.value = fin v ∧ (ev.lamsPlus = fun k => fin ((P.estimates st.input).1 k)) ∧
      (ev.lamsPdal = fun k => fin ((P.estimates st.input).2 k)) ∧ ev.prim = fin (flPrim R P st.hidden st.mu c st.lamsOpt) ∧
      ev.dual = fin (flDual R P st.hidden st.xOpt st.lamsOpt) ∧ ev.innerCrit = fin (P.crit st.input) := by
  have hg := largest_good hn
  have e1 := eventually_all.2 fun k : Fin m => ovShift_event R (Q.fusedPrev st.hidden k) st.mu (c k) (st.lamsPrev k)
  have e2 := eventually_all.2 fun k : Fin m => ovNormal_event R (P.sets k) st.mu (flShift R (Q.fusedPrev st.hidden k) st.mu (c k) (st.lamsPrev k))
  have e3 := eventually_all.2 fun k : Fin m => rd_event R (flMuInv R st.mu * (P.sets k).1.flNormalAt R st.mu (P.sets k).2
    (flShift R (Q.fusedPrev st.hidden k) st.mu (c k) (st.lamsPrev k)))
  have e4 := eventually_all.2 fun k : Fin m => ovShiftPdal_event R (Q.fusedPdal st.hidden k) st.mu (st.lamsOpt k)
    (flShift R (Q.fusedPrev st.hidden k) st.mu (c k) (st.lamsPrev k))
  have e5 := eventually_all.2 fun k : Fin m => ovNormal_event R (P.sets k) st.mu (flShiftPdal R (Q.fusedPdal st.hidden k) st.mu (st.lamsOpt k)
    (flShift R (Q.fusedPrev st.hidden k) st.mu (c k) (st.lamsPrev k)))
  have e6 := eventually_all.2 fun k : Fin m => rd_event R ((P.sets k).1.flNormalAt R st.mu (P.sets k).2
    (flShiftPdal R (Q.fusedPdal st.hidden k) st.mu (st.lamsOpt k) (flShift R (Q.fusedPrev st.hidden k) st.mu (c k) (st.lamsPrev k))) *
      R.rnd (flMuInv R st.mu / S.pdalBeta))
  have e7 := eventually_all.2 fun j : Fin n => ovEval_event R (P.grad st.xOpt j) (fun i => (P.jac st.xOpt i j, st.lamsOpt i)) (Q.rhsOrder st.hidden j)
  have e8 := eventually_all.2 fun j : Fin n => ovEval_event R (P.grad st.xOpt j) (fun i => (P.jac st.xOpt i j, st.lamsOpt i)) (Q.order st.hidden j)
  have e9 := eventually_all.2 fun j : Fin n => rd_event R ((Q.rhsOrder st.hidden j).eval R (P.grad st.xOpt j)
    (fun i => (P.jac st.xOpt i j, st.lamsOpt i)) + prox st.rho st.target st.xOpt j)
  have e10 := eventually_all.2 fun k : Fin m => ovRowErr_event R (P.sets k) (P.fused st.hidden k) st.mu (c k) (st.lamsOpt k)
  have e11 := eventually_all.2 fun k : Fin m => rd_event R ((P.estimates st.input).1 k - st.lamsOpt k)
  have e12 := eventually_all.2 fun k : Fin m => rd_event R ((P.estimates st.input).2 k - st.lamsOpt k)
  have e13 := eventually_all.2 fun k : Fin m => rd_event R (st.mu * R.rnd ((P.estimates st.input).1 k - st.lamsOpt k))
  have e14 := eventually_all.2 fun k : Fin m => rd_event R (R.rnd (1 / 2 * st.mu) * R.rnd ((P.estimates st.input).2 k - st.lamsOpt k))
  filter_upwards [e1, e2, e3, e4, e5, e6, e7, e8, e9, e10, e11, e12, e13, e14] with M a1 a2 a3 a4 a5 a6 a7 a8 a9 a10 a11 a12 a13 a14
  have hQe : Q.eval st.xOpt = some (fin v, fun i => fin (c i)) := by rw [hW.eval, he]; rfl
  have hplus := hW.plus st.input v c he
  have hpdal := hW.pdal st.input v c he
  have hcrit := hW.crit st.input v c he
  -- the entries
  have p1 : ∀ k, (OvArith.of R M).rd (fin ((OvArith.of R M).rnd (1 / st.mu)) * (Q.sets k).ovNormal (OvArith.of R M) st.mu
      (ovShift (OvArith.of R M) (Q.fusedPrev st.hidden k) st.mu (fin (c k)) (fin (st.lamsPrev k)))) = fin ((P.estimates st.input).1 k) := by
    intro k
    rw [a1, hW.sets, a2, hplus, ext_fin_mul]
    exact a3 k
  have p2 : ∀ k, (OvArith.of R M).rd ((Q.sets k).ovNormal (OvArith.of R M) st.mu
      (ovShiftPdal (OvArith.of R M) (Q.fusedPdal st.hidden k) st.mu (fin (st.lamsOpt k))
        (ovShift (OvArith.of R M) (Q.fusedPrev st.hidden k) st.mu (fin (c k)) (fin (st.lamsPrev k)))) *
      fin ((OvArith.of R M).rnd ((OvArith.of R M).rnd (1 / st.mu) / S.pdalBeta))) = fin ((P.estimates st.input).2 k) := by
    intro k
    rw [a1, a4, hW.sets, a5, hpdal, ext_fin_mul]
    exact a6 k
  have p3 : ∀ (t : H → Fin n → SumTree (Fin m)) j, ovLagGrad (OvArith.of R M) Q (t st.hidden) st.xOpt (fun k => fin (st.lamsOpt k)) j =
      (t st.hidden j).ovEval (OvArith.of R M) (fin (P.grad st.xOpt j)) (fun i => (fin (P.jac st.xOpt i j), fin (st.lamsOpt i))) := by
    intro t j
    unfold ovLagGrad
    rw [hW.grad]
    congr 1
    funext i
    rw [hW.jac]
  obtain ⟨top, htop⟩ : ∃ top : Fin n → K, top = fun j => (if 0 < st.input.rho then
        R.rnd ((Q.rhsOrder st.input.hidden j).eval R (P.grad st.input.x j) (fun k => (P.jac st.input.x k j, st.input.lam k)) +
          prox st.input.rho st.input.target st.input.x j)
      else (Q.rhsOrder st.input.hidden j).eval R (P.grad st.input.x j) (fun k => (P.jac st.input.x k j, st.input.lam k))) := ⟨_, rfl⟩
  obtain ⟨bot, hbot⟩ : ∃ bot : Fin m → K, bot = fun k => (match S.kkt with
      | .classic => R.rnd (st.input.mu * R.rnd ((P.estimates st.input).1 k - st.input.lam k))
      | .primalDual => R.rnd (R.rnd (1 / 2 * st.input.mu) * R.rnd ((P.estimates st.input).2 k - st.input.lam k))) := ⟨_, rfl⟩
  have hcrit : P.crit st.input = max (inftyNorm top) (inftyNorm bot) := by
    subst htop hbot
    exact hcrit
  have p4 : ∀ j, (if 0 < st.rho then (OvArith.of R M).rd (ovLagGrad (OvArith.of R M) Q (Q.rhsOrder st.hidden) st.xOpt
      (fun k => fin (st.lamsOpt k)) j + Q.proxGrad st.rho st.target st.xOpt j)
      else ovLagGrad (OvArith.of R M) Q (Q.rhsOrder st.hidden) st.xOpt (fun k => fin (st.lamsOpt k)) j) =
      fin (top j) := by
    intro j
    rw [htop]
    rw [p3, a7, hW.proxGrad, ext_fin_add, a9]
    exact (apply_ite fin _ _ _).symm
  have p5 : ∀ k, (match S.kkt with
      | .classic => (OvArith.of R M).rd (fin st.mu * (OvArith.of R M).rd (fin ((P.estimates st.input).1 k) - fin (st.lamsOpt k)))
      | .primalDual => (OvArith.of R M).rd (fin ((OvArith.of R M).rnd (1 / 2 * st.mu)) *
          (OvArith.of R M).rd (fin ((P.estimates st.input).2 k) - fin (st.lamsOpt k)))) =
      fin (bot k) := by
    intro k
    rw [hbot]
    cases S.kkt with
    | classic =>
      simp only
      rw [ext_fin_sub, a11, ext_fin_mul, a13]
      rfl
    | primalDual =>
      simp only
      rw [ext_fin_sub, a12, ext_fin_mul]
      exact a14 k
  have p6 : ∀ k, ovRowErr (OvArith.of R M) (Q.sets k) (Q.fused st.hidden k) st.mu (fin (c k)) (fin (st.lamsOpt k)) =
      fin (flRowErr R (P.sets k) (P.fused st.hidden k) st.mu (c k) (st.lamsOpt k)) := by
    intro k
    rw [hW.sets, hW.fused, a10]
  have p7 : ∀ j, ovLagGrad (OvArith.of R M) Q (Q.order st.hidden) st.xOpt (fun k => fin (st.lamsOpt k)) j =
      fin ((P.order st.hidden j).eval R (P.grad st.xOpt j) fun i => (P.jac st.xOpt i j, st.lamsOpt i)) := by
    intro j
    rw [p3, a8, hW.order]
  refine ⟨{ value := fin v, lamsPlus := fun k => fin ((P.estimates st.input).1 k), lamsPdal := fun k => fin ((P.estimates st.input).2 k)
            rhsTop := fun j => fin (top j), rhsBot := fun k => fin (bot k), prim := fin (flPrim R P st.hidden st.mu c st.lamsOpt)
            dual := fin (flDual R P st.hidden st.xOpt st.lamsOpt), innerCrit := fin (P.crit st.input) }, ?_, ?_, rfl, rfl, rfl, rfl, rfl, rfl⟩
  · unfold ovEval
    rw [hQe, Option.map_some, hcrit, ← goodNorm_append hg]
    simp only [p1, p2, p4]
    congr 1
    congr 1
    · exact funext p5
    · unfold ovPrim
      simp only [p6]
      exact goodNorm_blocks hg _ hb _
    · rw [show ovLagGrad (OvArith.of R M) Q (Q.order st.hidden) st.xOpt (fun k => fin (st.lamsOpt k)) = _ from funext p7]
      exact goodNorm_ofFn hg _
    · congr 2
      exact congrArg List.ofFn (funext p5)
  · unfold ExtEval.rhsOk
    simp only
    rw [show (List.ofFn fun j => fin (top j)) ++ (List.ofFn fun k => fin (bot k)) = (List.ofFn top ++ List.ofFn bot).map fin by
      rw [List.map_append, List.map_ofFn, List.map_ofFn]; rfl, checkValue_fins]
    rfl

theorem flSt_input (st : FlSt X K H m) : ovIn st.input = ⟨st.xOpt, fun k => fin (st.lamsOpt k), fun k => fin (st.lamsPrev k), st.target, st.mu,
    st.rho, st.hidden⟩ := rfl

/-- the state after an evaluation -/
def flAfterEval (R : Rounding K) (P : FlCtx X K H n m) (st : FlSt X K H m) (c : Fin m → K) : FlSt X K H m :=
  { st with
    prim := flPrim R P st.hidden st.mu c st.lamsOpt
    dual := flDual R P st.hidden st.xOpt st.lamsOpt
    lamsPlus := (P.estimates st.input).1
    lamsPdal := (P.estimates st.input).2
    hidden := P.updHess st.hidden st.xOpt (P.grad st.xOpt) (P.estimates st.input).2 }

/-- the state after a step -/
def flAfterStep (st : FlSt X K H m) (o : FlOut X K H m) : FlSt X K H m :=
  { st with
    xOpt := o.x, lamsOpt := o.lam, lamsPlus := o.lamsPlus, lamsPdal := o.lamsPdal, hidden := o.hidden, numIters := st.numIters + 1 }

theorem ovAfterEval_lift (hW : WithoutOverflow R S Q P prox) (st : FlSt X K H m) (w : ExtScalar K) (v : K) (c : Fin m → K) (ev : ExtEval K n m)
    (h1 : ev.value = fin v) (h2 : ev.lamsPlus = fun k => fin ((P.estimates st.input).1 k))
    (h3 : ev.lamsPdal = fun k => fin ((P.estimates st.input).2 k)) (h4 : ev.prim = fin (flPrim R P st.hidden st.mu c st.lamsOpt))
    (h5 : ev.dual = fin (flDual R P st.hidden st.xOpt st.lamsOpt)) :
    ovAfterEval Q (ovLift w st) ev = ovLift (fin v) (flAfterEval R P st c) := by
  unfold ovAfterEval ovLift flAfterEval
  simp only
  rw [h1, h2, h3, h4, h5, show Q.grad st.xOpt = fun j => fin (P.grad st.xOpt j) from funext (hW.grad _), hW.updHess]

/-- the inner loop without overflow -/
theorem ovInner_event (hW : WithoutOverflow R S Q P prox) (hn : LargestNorm Q.norm) (hb : ∀ i, ∃ b ∈ Q.blocks, i ∈ b) :
    ∀ (k : ℕ) (st : FlSt X K H m), S.maxIters - st.numIters = k →
    ∀ w, (flInner R P S st = none → ∀ᶠ M in atTop, ovInner (OvArith.of R M) Q S (ovLift w st) = none) ∧
      ∀ s, flInner R P S st = some s → ∃ w', ∀ᶠ M in atTop, ovInner (OvArith.of R M) Q S (ovLift w st) = some (ovLift w' s) := by
  intro k
  induction k using Nat.strong_induction_on with
  | _ k ih =>
    intro st hk w
    cases he : P.eval st.xOpt with
    | none =>
      have h1 : ∀ M, ovInner (OvArith.of R M) Q S (ovLift w st) = none := fun M => by
        have : ovEval (OvArith.of R M) Q S (ovLift w st).hidden (ovLift w st).mu (ovLift w st).rho (ovLift w st).target (ovLift w st).xOpt
            (ovLift w st).lamsOpt (ovLift w st).lamsPrev = none := by
          unfold ovEval
          rw [show Q.eval (ovLift w st).xOpt = none by rw [hW.eval]; show Option.map _ (P.eval st.xOpt) = none; rw [he]; rfl]
          rfl
        rw [ovInner, this]
      have h2 : flInner R P S st = none := by
        have : flEval R P st = none := by unfold flEval; rw [he]; rfl
        rw [flInner, this]
      exact ⟨fun _ => Eventually.of_forall h1, fun s hs => by rw [h2] at hs; cases hs⟩
    | some vc =>
      obtain ⟨v, c⟩ := vc
      have E := ovEvalSt_event hW hn hb st v c he
      have hfl : flEval R P st = some (flAfterEval R P st c) := by unfold flEval; rw [he]; rfl
      by_cases hstop : P.crit st.input ≤ st.tols.1 ∨ max (flAfterEval R P st c).prim (flAfterEval R P st c).dual ≤ S.targetTol
      · have h2 : flInner R P S st = some (flAfterEval R P st c) := by
          rw [flInner, hfl]
          simp only
          rw [if_pos hstop]
        refine ⟨fun h => (by rw [h2] at h; cases h), fun s hs => ?_⟩
        rw [h2] at hs
        cases hs
        refine ⟨fin v, ?_⟩
        filter_upwards [E] with M hM
        obtain ⟨ev, g1, g2, g3, g4, g5, g6, g7, g8⟩ := hM
        rw [ovInner, show ovEval (OvArith.of R M) Q S (ovLift w st).hidden (ovLift w st).mu (ovLift w st).rho (ovLift w st).target
          (ovLift w st).xOpt (ovLift w st).lamsOpt (ovLift w st).lamsPrev = some ev from g1]
        simp only
        rw [if_neg (by simp [g2, hW.matrixOk]), ovAfterEval_lift hW st w v c ev g3 g4 g5 g6 g7, if_pos]
        rw [g8, g6, g7, ext_stdMax]
        exact hstop.imp (fun h => decide_eq_true h) (fun h => decide_eq_true h)
      · have hov : ∀ M ev, ovEval (OvArith.of R M) Q S st.hidden st.mu st.rho st.target st.xOpt (fun k => fin (st.lamsOpt k))
            (fun k => fin (st.lamsPrev k)) = some ev → ev.rhsOk = true → ev.value = fin v →
            (ev.lamsPlus = fun k => fin ((P.estimates st.input).1 k)) → (ev.lamsPdal = fun k => fin ((P.estimates st.input).2 k)) →
            ev.prim = fin (flPrim R P st.hidden st.mu c st.lamsOpt) → ev.dual = fin (flDual R P st.hidden st.xOpt st.lamsOpt) →
            ev.innerCrit = fin (P.crit st.input) →
            ovInner (OvArith.of R M) Q S (ovLift w st) =
              match Q.step (ovIn (flAfterEval R P st c).input) with
              | none => none
              | some o =>
                if checkValue (List.ofFn o.lam) = true ∨ checkScalar o.merit = true then none
                else
                  let st2 := { ovLift (fin v) (flAfterEval R P st c) with
                    xOpt := o.x, lamsOpt := o.lam, lamsPlus := o.lamsPlus, lamsPdal := o.lamsPdal, hidden := o.hidden
                    numIters := st.numIters + 1 }
                  if st.numIters + 1 ≥ S.maxIters then some { st2 with converged := .maxIters }
                  else ovInner (OvArith.of R M) Q S st2 := by
          intro M ev g1 g2 g3 g4 g5 g6 g7 g8
          rw [ovInner, show ovEval (OvArith.of R M) Q S (ovLift w st).hidden (ovLift w st).mu (ovLift w st).rho (ovLift w st).target
            (ovLift w st).xOpt (ovLift w st).lamsOpt (ovLift w st).lamsPrev = some ev from g1]
          simp only
          rw [if_neg (by simp [g2, hW.matrixOk]), ovAfterEval_lift hW st w v c ev g3 g4 g5 g6 g7, if_neg]
          · rfl
          · rw [g8, g6, g7, ext_stdMax]
            exact fun h => hstop (h.imp of_decide_eq_true of_decide_eq_true)
        cases ho : P.step (flAfterEval R P st c).input with
        | none =>
          have h2 : flInner R P S st = none := by
            rw [flInner, hfl]
            simp only
            rw [if_neg hstop, ho]
          refine ⟨fun _ => ?_, fun s hs => (by rw [h2] at hs; cases hs)⟩
          filter_upwards [E] with M hM
          obtain ⟨ev, g1, g2, g3, g4, g5, g6, g7, g8⟩ := hM
          rw [hov M ev g1 g2 g3 g4 g5 g6 g7 g8, hW.stepNone _ ho]
        | some o =>
          obtain ⟨w2, hw2⟩ := hW.stepSome _ o ho
          have hchk : ¬ (checkValue (List.ofFn (ovOut w2 o).lam) = true ∨ checkScalar (ovOut w2 o).merit = true) := by
            rintro (h | h)
            · rw [show List.ofFn (ovOut w2 o).lam = (List.ofFn o.lam).map fin by rw [List.map_ofFn]; rfl, checkValue_fins] at h
              cases h
            · cases h
          by_cases hmax : st.numIters + 1 ≥ S.maxIters
          · have h2 : flInner R P S st = some { flAfterStep (flAfterEval R P st c) o with converged := .maxIters } := by
              rw [flInner, hfl]
              simp only
              rw [if_neg hstop, ho]
              simp only
              rw [if_pos hmax]
              rfl
            refine ⟨fun h => (by rw [h2] at h; cases h), fun s hs => ?_⟩
            rw [h2] at hs
            cases hs
            refine ⟨fin v, ?_⟩
            filter_upwards [E] with M hM
            obtain ⟨ev, g1, g2, g3, g4, g5, g6, g7, g8⟩ := hM
            rw [hov M ev g1 g2 g3 g4 g5 g6 g7 g8, hw2]
            simp only
            rw [if_neg hchk, if_pos hmax]
            rfl
          · have h2 : flInner R P S st = flInner R P S (flAfterStep (flAfterEval R P st c) o) := by
              rw [flInner, hfl]
              simp only
              rw [if_neg hstop, ho]
              simp only
              rw [if_neg hmax]
              rfl
            rw [h2]
            have hih := ih _ (by omega) (flAfterStep (flAfterEval R P st c) o)
              (show S.maxIters - (st.numIters + 1) = S.maxIters - (st.numIters + 1) from rfl) (fin v)
            have E2 : ∀ᶠ M in atTop, ovInner (OvArith.of R M) Q S (ovLift w st) =
                ovInner (OvArith.of R M) Q S (ovLift (fin v) (flAfterStep (flAfterEval R P st c) o)) := by
              filter_upwards [E] with M hM
              obtain ⟨ev, g1, g2, g3, g4, g5, g6, g7, g8⟩ := hM
              rw [hov M ev g1 g2 g3 g4 g5 g6 g7 g8, hw2]
              simp only
              rw [if_neg hchk, if_neg hmax]
              rfl
            refine ⟨fun h => ?_, fun s h => ?_⟩
            · filter_upwards [E2, hih.1 h] with M h3 h4
              exact h3.trans h4
            · obtain ⟨w', hw'⟩ := hih.2 s h
              refine ⟨w', ?_⟩
              filter_upwards [E2, hw'] with M h3 h4
              exact h3.trans h4

theorem ovAfterInner_lift (hW : WithoutOverflow R S Q P prox) (w : ExtScalar K) (st : FlSt X K H m) :
    ovAfterInner Q S (ovLift w st) = ovLift w (flAfterInner P S st) := by
  unfold ovAfterInner flAfterInner
  simp only
  by_cases h : st.prim < st.tols.2
  · rw [if_pos h, if_pos (show lt (ovLift w st).prim (fin (ovLift w st).tols.2) = true from decide_eq_true h), hW.tolSuccess]
    cases S.mode <;> rfl
  · rw [if_neg h, if_neg (show ¬ lt (ovLift w st).prim (fin (ovLift w st).tols.2) = true from fun h' => h (of_decide_eq_true h')), hW.tolFailure, hW.nextMu]
    rfl

/-- the outer loop without overflow -/
theorem ovOuter_event (hW : WithoutOverflow R S Q P prox) (hn : LargestNorm Q.norm) (hb : ∀ i, ∃ b ∈ Q.blocks, i ∈ b) :
    ∀ (k : ℕ) (st : FlSt X K H m), S.maxAlIters - st.alIters = k →
    ∀ w, (flOuter R P S st = none → ∀ᶠ M in atTop, ovOuter (OvArith.of R M) Q S (ovLift w st) = none) ∧
      ∀ s, flOuter R P S st = some s → ∃ w', ∀ᶠ M in atTop, ovOuter (OvArith.of R M) Q S (ovLift w st) = some (ovLift w' s) := by
  intro k
  induction k using Nat.strong_induction_on with
  | _ k ih =>
    intro st hk w
    by_cases hb0 : st.numIters < S.maxIters ∧ st.alIters < S.maxAlIters
    · have E := ovInner_event hW hn hb _ { st with resMu := st.mu, hidden := P.enterInner st.hidden } rfl w
      have hov : ∀ M, ovOuter (OvArith.of R M) Q S (ovLift w st) =
          match ovInner (OvArith.of R M) Q S (ovLift w { st with resMu := st.mu, hidden := P.enterInner st.hidden }) with
          | none => none
          | some st1 =>
            let st2 := ovAfterInner Q S st1
            if lt (stdMax st2.prim st2.dual) (fin S.targetTol) = true then some { st2 with converged := .success }
            else ovOuter (OvArith.of R M) Q S { st2 with rho := R.rnd (st2.rho * S.rhoUpdateFactor), alIters := st.alIters + 1 } := by
        intro M
        rw [ovOuter, if_pos (show (ovLift w st).numIters < S.maxIters ∧ (ovLift w st).alIters < S.maxAlIters from hb0), hW.enterInner]
        rfl
      cases hin : flInner R P S { st with resMu := st.mu, hidden := P.enterInner st.hidden } with
      | none =>
        have h2 : flOuter R P S st = none := by rw [flOuter, if_pos hb0, hin]
        refine ⟨fun _ => ?_, fun s hs => (by rw [h2] at hs; cases hs)⟩
        filter_upwards [E.1 hin] with M hM
        rw [hov, hM]
      | some s1 =>
        have hlift : ∀ w', lt (stdMax (ovAfterInner Q S (ovLift w' s1)).prim (ovAfterInner Q S (ovLift w' s1)).dual) (fin S.targetTol) = true ↔
            max (flAfterInner P S s1).prim (flAfterInner P S s1).dual < S.targetTol := by
          intro w'
          rw [ovAfterInner_lift hW]
          show lt (stdMax (fin _) (fin _)) _ = true ↔ _
          rw [ext_stdMax]
          exact decide_eq_true_iff
        by_cases hsucc : max (flAfterInner P S s1).prim (flAfterInner P S s1).dual < S.targetTol
        · have h2 : flOuter R P S st = some { flAfterInner P S s1 with converged := .success } := by
            rw [flOuter, if_pos hb0, hin]
            simp only
            rw [if_pos hsucc]
          refine ⟨fun h => (by rw [h2] at h; cases h), fun s hs => ?_⟩
          rw [h2] at hs
          cases hs
          obtain ⟨w', hw'⟩ := E.2 _ hin
          refine ⟨w', ?_⟩
          filter_upwards [hw'] with M hM
          rw [hov, hM]
          simp only
          rw [if_pos ((hlift w').2 hsucc), ovAfterInner_lift hW]
          rfl
        · have h2 : flOuter R P S st = flOuter R P S { flAfterInner P S s1 with
              rho := R.rnd ((flAfterInner P S s1).rho * S.rhoUpdateFactor), alIters := st.alIters + 1 } := by
            rw [flOuter, if_pos hb0, hin]
            simp only
            rw [if_neg hsucc]
          obtain ⟨w', hw'⟩ := E.2 _ hin
          rw [h2]
          have hih := ih (S.maxAlIters - (st.alIters + 1)) (by omega) { flAfterInner P S s1 with
              rho := R.rnd ((flAfterInner P S s1).rho * S.rhoUpdateFactor), alIters := st.alIters + 1 } rfl w'
          have E2 : ∀ᶠ M in atTop, ovOuter (OvArith.of R M) Q S (ovLift w st) =
              ovOuter (OvArith.of R M) Q S (ovLift w' { flAfterInner P S s1 with
                rho := R.rnd ((flAfterInner P S s1).rho * S.rhoUpdateFactor), alIters := st.alIters + 1 }) := by
            filter_upwards [hw'] with M hM
            rw [hov, hM]
            simp only
            rw [if_neg fun h => hsucc ((hlift w').1 h), ovAfterInner_lift hW]
            rfl
          refine ⟨fun h => ?_, fun s h => ?_⟩
          · filter_upwards [E2, hih.1 h] with M h3 h4
            exact h3.trans h4
          · obtain ⟨w', hw'⟩ := hih.2 s h
            refine ⟨w', ?_⟩
            filter_upwards [E2, hw'] with M h3 h4
            exact h3.trans h4
    · have h1 : flOuter R P S st = some st := by rw [flOuter, if_neg hb0]
      have h2 : ∀ M, ovOuter (OvArith.of R M) Q S (ovLift w st) = some (ovLift w st) := fun M => by
        rw [ovOuter, if_neg]
        exact hb0
      refine ⟨fun h => (by rw [h1] at h; cases h), fun s hs => ?_⟩
      rw [h1] at hs
      cases hs
      exact ⟨w, Eventually.of_forall h2⟩

end loop

end ProxNLP
