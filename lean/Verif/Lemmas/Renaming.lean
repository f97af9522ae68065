import Verif.Spec.Renaming
import Verif.Lemmas.Math
import Verif.Props.Step
import Verif.Props.Backends
import Verif.Lemmas.Solver
import Verif.Lemmas.SolverOuter
import Mathlib.Tactic.Ring
import Mathlib.Algebra.BigOperators.Group.Finset.Defs

/-!
Lemmas for C111: every function of the model commutes with renaming.
-/

set_option linter.unusedSectionVars false
namespace ProxNLP
open Spec

variable {X X' K : Type} {n m : ℕ} [Field K] [LinearOrder K] [IsStrictOrderedRing K]

theorem inftyNorm_perm {N : ℕ} (σ : Equiv.Perm (Fin N)) (z : Fin N → K) : inftyNorm (fun i => z (σ i)) = inftyNorm z := by
  apply le_antisymm
  · exact (inftyNorm_le_iff _ _).2 ⟨inftyNorm_nonneg _, fun i => abs_le_inftyNorm z _⟩
  · refine (inftyNorm_le_iff _ _).2 ⟨inftyNorm_nonneg _, fun i => ?_⟩
    have := abs_le_inftyNorm (fun i => z (σ i)) (σ.symm i)
    simpa using this

section
variable (ρ : Renaming X X' K n m)

/-- multipliers, renamed -/
def renMults (M : Mults K m) : Mults K m :=
  { shift := fun i => M.shift (ρ.row i), shiftPdal := fun i => M.shiftPdal (ρ.row i)
    lamsPlus := fun i => M.lamsPlus (ρ.row i), lamsPdal := fun i => M.lamsPdal (ρ.row i)
    lamsPlusReproj := fun i => M.lamsPlusReproj (ρ.row i), lamsPdalReproj := fun i => M.lamsPdalReproj (ρ.row i) }

/-- quantities of one pass, renamed -/
def renEv (ev : EvalOut K n m) : EvalOut K n m :=
  { value := ev.value + ρ.shift, c := fun i => ev.c (ρ.row i), grad := fun j => ev.grad (ρ.var j)
    jac := fun i j => ev.jac (ρ.row i) (ρ.var j), shift := fun i => ev.shift (ρ.row i), shiftPdal := fun i => ev.shiftPdal (ρ.row i)
    lamsPlus := fun i => ev.lamsPlus (ρ.row i), lamsPdal := fun i => ev.lamsPdal (ρ.row i)
    proxGrad := fun j => ev.proxGrad (ρ.var j), rhsTop := fun j => ev.rhsTop (ρ.var j), rhsBot := fun i => ev.rhsBot (ρ.row i)
    merit := ev.merit + ρ.shift, prim := ev.prim, dual := ev.dual }

/-- input of a step, renamed -/
def renIn (h : Hidden K n m) (i : StepIn X K (Hidden K n m) n m) : StepIn X' K (Hidden K n m) n m :=
  { x := ρ.point i.x, lam := fun k => i.lam (ρ.row k), lamPrev := fun k => i.lamPrev (ρ.row k), target := ρ.point i.target
    mu := i.mu, setMu := i.setMu, rho := i.rho, hidden := h, ev := renEv ρ i.ev }

/-- output of a step, renamed -/
def renOut (h : Hidden K n m) (o : StepOut X K (Hidden K n m) m) : StepOut X' K (Hidden K n m) m :=
  { x := ρ.point o.x, lam := fun k => o.lam (ρ.row k), merit := o.merit + ρ.shift
    lamsPlus := fun k => o.lamsPlus (ρ.row k), lamsPdal := fun k => o.lamsPdal (ρ.row k), hidden := h }

end

variable {ρ : Renaming X X' K n m} {C : StepCfg X K n m} {C' : StepCfg X' K n m}

theorem ren_mults (h : SameProblem ρ C C') (mu setMu beta : K) (c lam lamPrev : Fin m → K) :
    computeMultipliers C'.sets mu setMu beta (fun i => c (ρ.row i)) (fun i => lam (ρ.row i)) (fun i => lamPrev (ρ.row i)) =
      renMults ρ (computeMultipliers C.sets mu setMu beta c lam lamPrev) := by
  have n1 := h.normal setMu (fun i => c i + mu * lamPrev i)
  have n2 := h.normal setMu (fun i => c i + mu * lamPrev i - 1 / 2 * mu * lam i)
  have a1 := h.active setMu (fun i => c i + mu * lamPrev i)
  have a2 := h.active setMu (fun i => c i + mu * lamPrev i - 1 / 2 * mu * lam i)
  simp only [computeMultipliers, renMults, n1, n2, a1, a2]

theorem ren_merit (h : SameProblem ρ C C') (setMu value : K) (z lam : Fin m → K) :
    meritEvaluate C'.sets setMu (value + ρ.shift) (fun i => z (ρ.row i)) (fun i => lam (ρ.row i)) =
      meritEvaluate C.sets setMu value z lam + ρ.shift := by
  have n1 := h.normal setMu z
  have e1 := h.evaluate setMu (fun i => z i - C.sets.normal setMu z i)
  simp only [meritEvaluate, n1, e1]
  rw [Equiv.sum_comp ρ.row (fun i => C.sets.normal setMu z i ^ 2), Equiv.sum_comp ρ.row (fun i => lam i ^ 2)]
  ring

theorem ren_dual (J : Fin m → Fin n → K) (lam : Fin m → K) (j : Fin n) :
    ∑ i, J (ρ.row i) (ρ.var j) * lam (ρ.row i) = ∑ i, J i (ρ.var j) * lam i :=
  Equiv.sum_comp ρ.row (fun i => J i (ρ.var j) * lam i)

theorem ren_prim (h : SameProblem ρ C C') (mu setMu : K) (c lam : Fin m → K) :
    primResidual C'.sets mu setMu (fun i => c (ρ.row i)) (fun i => lam (ρ.row i)) = primResidual C.sets mu setMu c lam := by
  have := h.projection setMu (fun i => c i + mu * lam i)
  simp only [primResidual, this]
  exact inftyNorm_perm ρ.row (fun i => c i - C.sets.projection setMu (fun i => c i + mu * lam i) i)

theorem ren_evalAt (h : SameProblem ρ C C') (S : Settings K) (mu setMu rho : K) (t x : X) (lam lamPrev : Fin m → K) :
    evalAt (concreteCtx C') S mu setMu rho (ρ.point t) (ρ.point x) (fun i => lam (ρ.row i)) (fun i => lamPrev (ρ.row i)) =
      (evalAt (concreteCtx C) S mu setMu rho t x lam lamPrev).map (renEv ρ) := by
  simp only [evalAt, concreteCtx, h.eval, Option.map_map]
  refine congrArg (fun f => Option.map f (C.eval x)) (funext fun fc => ?_)
  have n1 := h.normal setMu (fun i => fc.2 i + mu * lamPrev i)
  have n2 := h.normal setMu (fun i => fc.2 i + mu * lamPrev i - 1 / 2 * mu * lam i)
  have e1 := h.evaluate setMu (fun i => fc.2 i + mu * lamPrev i - 1 / 2 * mu * lam i -
    C.sets.normal setMu (fun i => fc.2 i + mu * lamPrev i - 1 / 2 * mu * lam i) i)
  have hg : C'.grad (ρ.point x) = fun j => C.grad x (ρ.var j) := funext (h.grad x)
  have hJ : C'.jac (ρ.point x) = fun i j => C.jac x (ρ.row i) (ρ.var j) := funext fun i => funext (h.jac x i)
  have hp : C'.proxGrad rho (ρ.point t) (ρ.point x) = fun j => C.proxGrad rho t x (ρ.var j) := funext (h.proxGrad rho t x)
  have hd : ∀ j, ∑ i, C.jac x (ρ.row i) (ρ.var j) * lam (ρ.row i) = ∑ i, C.jac x i (ρ.var j) * lam i :=
    fun j => ren_dual (C.jac x) lam j
  have hdr : dualResidual (fun j => C.grad x (ρ.var j)) (fun i j => C.jac x (ρ.row i) (ρ.var j)) (fun i => lam (ρ.row i)) =
      dualResidual (C.grad x) (C.jac x) lam := by
    simp only [dualResidual, hd]
    exact inftyNorm_perm ρ.var (fun j => C.grad x j + ∑ i, C.jac x i j * lam i)
  simp only [Function.comp, renEv, n1, n2, e1, hg, hJ, hp, hd, h.proxVal, ren_prim h, hdr]
  rw [Equiv.sum_comp ρ.row (fun i => C.sets.normal setMu (fun i => fc.2 i + mu * lamPrev i - 1 / 2 * mu * lam i) i ^ 2),
    Equiv.sum_comp ρ.row (fun i => lam i ^ 2)]
  congr 1
  · split <;> rfl
  · cases S.kkt <;> rfl
  · split <;> ring

/-! ### Line search -/

theorem poly3_lt (a b c k lo hi : K) :
    (polyEvaluate [a, b, c + k] lo < polyEvaluate [a, b, c + k] hi) = (polyEvaluate [a, b, c] lo < polyEvaluate [a, b, c] hi) := by
  simp only [polyEvaluate, List.foldl]
  rw [eq_iff_iff, ← add_assoc, ← add_assoc, add_lt_add_iff_right]

theorem poly4_lt (a b c d k lo hi : K) :
    (polyEvaluate [a, b, c, d + k] lo < polyEvaluate [a, b, c, d + k] hi) =
      (polyEvaluate [a, b, c, d] lo < polyEvaluate [a, b, c, d] hi) := by
  simp only [polyEvaluate, List.foldl]
  rw [eq_iff_iff, ← add_assoc, ← add_assoc, add_lt_add_iff_right]

theorem minimizeQuad_shift (k phi0 d : K) (c : LSSample K) (lo hi : K) :
    minimizeQuad (phi0 + k) d { c with phi := c.phi + k } lo hi = minimizeQuad phi0 d c lo hi := by
  have e : c.phi + k - (phi0 + k) = c.phi - phi0 := by ring
  simp only [minimizeQuad, quadCoeffs, e]
  split
  · rfl
  · generalize (if 2 * ((c.phi - phi0 - c.alpha * d) / (c.alpha * c.alpha)) = 0 then if -d = 0 then Cand.nan else Cand.inf
      else Cand.fin (-d / (2 * ((c.phi - phi0 - c.alpha * d) / (c.alpha * c.alpha))))) = q
    cases q <;> simp only [safeguard, poly3_lt]

theorem minimizeCubic_shift (sqrt : K → K) (sing : LSSample K → LSSample K → K → K → Option K) (k phi0 d : K)
    (hs : ∀ c0 c1 : LSSample K, ∀ lo hi, sing { c0 with phi := c0.phi + k } { c1 with phi := c1.phi + k } lo hi = sing c0 c1 lo hi)
    (c0 c1 : LSSample K) (lo hi : K) :
    minimizeCubic sqrt sing (phi0 + k) d { c0 with phi := c0.phi + k } { c1 with phi := c1.phi + k } lo hi =
      minimizeCubic sqrt sing phi0 d c0 c1 lo hi := by
  have e0 : c0.phi + k - (phi0 + k) = c0.phi - phi0 := by ring
  have e1 : c1.phi + k - (phi0 + k) = c1.phi - phi0 := by ring
  have ec : cubicCoeffs (phi0 + k) d { c0 with phi := c0.phi + k } { c1 with phi := c1.phi + k } = cubicCoeffs phi0 d c0 c1 := by
    simp only [cubicCoeffs, e0, e1]
  simp only [minimizeCubic, hs, ec]
  split
  · rfl
  · generalize cubicCoeffs phi0 d c0 c1 = cc
    generalize (if cc.2 * cc.2 - 3 * cc.1 * d < 0 then Cand.nan
      else if 3 * cc.1 = 0 then if -cc.2 + sqrt (cc.2 * cc.2 - 3 * cc.1 * d) = 0 then Cand.nan else Cand.inf
      else Cand.fin ((-cc.2 + sqrt (cc.2 * cc.2 - 3 * cc.1 * d)) / (3 * cc.1))) = q
    cases q <;> simp only [safeguard, poly4_lt]

theorem lsNextAlpha_shift (sqrt : K → K) (sing : LSSample K → LSSample K → K → K → Option K) (o : LSOptions K) (k phi0 d alpha : K)
    (hs : ∀ c0 c1 : LSSample K, ∀ lo hi, sing { c0 with phi := c0.phi + k } { c1 with phi := c1.phi + k } lo hi = sing c0 c1 lo hi)
    (latest prev prev' : LSSample K) (ha : prev'.alpha = prev.alpha) (hv : prev'.valid = prev.valid)
    (hp : prev.valid = true → prev' = { prev with phi := prev.phi + k }) :
    lsNextAlpha sqrt sing o (phi0 + k) d alpha { latest with phi := latest.phi + k } prev' =
      lsNextAlpha sqrt sing o phi0 d alpha latest prev := by
  by_cases h : prev.valid = true
  · rw [hp h]
    simp only [lsNextAlpha, minimizeQuad_shift, minimizeCubic_shift sqrt sing k phi0 d hs]
  · have h' : ¬ prev'.valid = true := by rwa [hv]
    simp only [lsNextAlpha, minimizeQuad_shift, if_neg h, if_neg h', ha]

theorem lsLoop_shift (sqrt : K → K) (sing : LSSample K → LSSample K → K → K → Option K) (phi : K → Option K) (o : LSOptions K)
    (k phi0 d : K) (tr0 : List K)
    (hs : ∀ c0 c1 : LSSample K, ∀ lo hi, sing { c0 with phi := c0.phi + k } { c1 with phi := c1.phi + k } lo hi = sing c0 c1 lo hi)
    (ht : ∀ a, phi a ≠ none) : ∀ (j : ℕ) (alpha : K) (latest prev prev' : LSSample K) (tr : List K),
      prev'.alpha = prev.alpha → prev'.valid = prev.valid → (prev.valid = true → prev' = { prev with phi := prev.phi + k }) →
      lsLoop sqrt sing (fun a => (phi a).map (· + k)) o (phi0 + k) d tr0 j alpha { latest with phi := latest.phi + k } prev' tr =
        { lsLoop sqrt sing phi o phi0 d tr0 j alpha latest prev tr with
          ret := (lsLoop sqrt sing phi o phi0 d tr0 j alpha latest prev tr).ret + k } := by
  intro j
  induction j with
  | zero => intros; rfl
  | succ j ih =>
    intro alpha latest prev prev' tr ha hv hp
    have e : latest.phi + k - (phi0 + k) = latest.phi - phi0 := by ring
    simp only [lsLoop, e, lsNextAlpha_shift sqrt sing o k phi0 d alpha hs latest prev prev' ha hv hp]
    by_cases hc : latest.phi - phi0 ≤ o.armijoC1 * alpha * d
    · simp only [if_pos hc]
    · simp only [if_neg hc]
      generalize lsNextAlpha sqrt sing o phi0 d alpha latest prev = a
      cases hv' : phi a with
      | none => exact absurd hv' (ht a)
      | some v =>
        simp only [Option.map_some]
        by_cases hm : a ≤ o.alphaMin
        · simp only [if_pos hm]
        · simp only [if_neg hm]
          exact ih a (LSSample.mk' a v) latest { latest with phi := latest.phi + k } (a :: tr) rfl rfl (fun _ => rfl)

theorem lsRun_shift (sqrt : K → K) (sing : LSSample K → LSSample K → K → K → Option K) (phi phi' : K → Option K) (o : LSOptions K)
    (k phi0 d : K) (fuel : ℕ) (hphi : ∀ a, phi' a = (phi a).map (· + k))
    (hk : k = 0 ∨ ((∀ a, phi a ≠ none) ∧ ∀ c0 c1 : LSSample K, ∀ lo hi,
      sing { c0 with phi := c0.phi + k } { c1 with phi := c1.phi + k } lo hi = sing c0 c1 lo hi)) :
    lsRun sqrt sing phi' o (phi0 + k) d fuel = (lsRun sqrt sing phi o phi0 d fuel).map fun r => { r with ret := r.ret + k } := by
  have hp : phi' = fun a => (phi a).map (· + k) := funext hphi
  rw [hp]
  rcases hk with rfl | ⟨ht, hs⟩
  · have e : (fun a => (phi a).map (· + (0 : K))) = phi := by
      funext a; cases phi a <;> simp
    rw [e]
    cases h : lsRun sqrt sing phi o phi0 d fuel <;> simp [h]
  · cases fuel with
    | zero => simp [lsRun, lsFirst]
    | succ f =>
      cases h1 : phi 1 with
      | none => exact absurd h1 (ht 1)
      | some v =>
        simp only [lsRun, lsFirst, h1, Option.map_some]
        by_cases hd : |d| < o.dphiThresh
        · simp only [if_pos hd, Option.map_some]; rfl
        · simp only [if_neg hd, Option.map_some]
          exact congrArg some (lsLoop_shift sqrt sing phi o k phi0 d [1] hs ht o.maxNumSteps 1 (LSSample.mk' 1 v) LSSample.default
            LSSample.default [] rfl rfl (fun h => by simp [LSSample.default] at h))

/-! ### The linear system -/

theorem kktHessian_sum (exact : Bool) (rho : K) (hess ph : Matrix (Fin n) (Fin n) K) (vhps : List (Bool × Matrix (Fin n) (Fin n) K)) :
    kktHessian exact rho hess ph vhps =
      (if 0 < rho then hess + ph else hess) + (vhps.map fun v => if !v.1 || exact then v.2 else 0).sum := by
  unfold kktHessian
  simp only
  generalize (if 0 < rho then hess + ph else hess) = h0
  induction vhps generalizing h0 with
  | nil => simp
  | cons v l ih =>
    rw [List.foldl_cons, ih, List.map_cons, List.sum_cons]
    split <;> simp [add_assoc]

theorem mat_add (A B : Matrix (Fin n) (Fin n) K) : ρ.mat (A + B) = ρ.mat A + ρ.mat B := rfl

theorem mat_zero : ρ.mat (0 : Matrix (Fin n) (Fin n) K) = 0 := rfl

theorem mat_one : ρ.mat (1 : Matrix (Fin n) (Fin n) K) = 1 := by
  ext i j
  simp [Renaming.mat, Matrix.one_apply]

theorem mat_sum (l : List (Matrix (Fin n) (Fin n) K)) : ρ.mat l.sum = (l.map ρ.mat).sum := by
  induction l with
  | nil => rfl
  | cons a l ih => rw [List.sum_cons, mat_add, ih, List.map_cons, List.sum_cons]

theorem ren_hessian (exact : Bool) (rho : K) (hess ph : Matrix (Fin n) (Fin n) K) (vhps vhps' : List (Bool × Matrix (Fin n) (Fin n) K))
    (hp : ∀ exact, secondOrder exact vhps' = ρ.mat (secondOrder exact vhps)) :
    kktHessian exact rho (ρ.mat hess) (ρ.mat ph) vhps' = ρ.mat (kktHessian exact rho hess ph vhps) := by
  rw [kktHessian_sum, kktHessian_sum, mat_add]
  congr 1
  · split <;> rfl
  · exact hp exact

theorem secondOrder_mat (exact : Bool) (v : List (Bool × Matrix (Fin n) (Fin n) K)) :
    secondOrder exact (v.map fun p => (p.1, ρ.mat p.2)) = ρ.mat (secondOrder exact v) := by
  unfold secondOrder
  rw [mat_sum, List.map_map, List.map_map]
  refine congrArg List.sum (List.map_congr_left fun v _ => ?_)
  simp only [Function.comp]
  split <;> rfl

/-- what the rows add does not depend on how they are distributed among constraint objects -/
theorem secondOrder_grouped (exact : Bool) (hess : X → Fin m → Matrix (Fin n) (Fin n) K) (left : Fin m → Bool) (groups : List (List (Fin m)))
    (hg : IsGrouping left groups) (x : X) (l : Fin m → K) :
    secondOrder exact (groupedRows hess left groups x l) =
      ((List.finRange m).map fun i => if !left i || exact then l i • hess x i else 0).sum := by
  obtain ⟨hp, hk⟩ := hg
  rw [← (hp.map _).sum_eq]
  clear hp
  unfold secondOrder groupedRows
  induction groups with
  | nil => rfl
  | cons g gs ih =>
    rw [List.map_cons, List.map_cons, List.sum_cons, List.flatten_cons, List.map_append, List.sum_append,
      ih fun g' hg' => hk g' (List.mem_cons_of_mem _ hg')]
    congr 1
    have hg := hk g List.mem_cons_self
    have hany : ∀ i ∈ g, left i = g.any left := by
      intro i hi
      cases hb : g.any left
      · by_contra hc
        rw [List.any_eq_true.2 ⟨i, hi, by simpa using hc⟩] at hb
        cases hb
      · obtain ⟨k, hk1, hk2⟩ := List.any_eq_true.1 hb
        rw [hg i hi k hk1, hk2]
    have hm : (g.map fun i => if !left i || exact then l i • hess x i else 0) =
        g.map fun i => if !g.any left || exact then l i • hess x i else 0 :=
      List.map_congr_left fun i hi => by rw [hany i hi]
    rw [hm]
    by_cases hb : (!g.any left || exact) = true
    · simp only [hb, if_true]
    · simp only [hb]
      simp

theorem ren_kktMatrix (Hs : Matrix (Fin n) (Fin n) K) (Jp : Fin m → Fin n → K) (d : Fin m → K) :
    kktMatrix (ρ.mat Hs) (fun i j => Jp (ρ.row i) (ρ.var j)) (fun i => d (ρ.row i)) = ρ.kkt (kktMatrix Hs Jp d) := by
  ext a b
  rcases a with a | a <;> rcases b with b | b <;>
    simp [kktMatrix, Renaming.mat, Renaming.kkt, Matrix.diagonal_apply]

theorem ren_keptRows (h : SameProblem ρ C C') (sys : KktSys) (setMu : K) (M : Mults K m) :
    keptRows sys C'.sets setMu (renMults ρ M) = fun i => keptRows sys C.sets setMu M (ρ.row i) := by
  cases sys
  · exact funext (h.active setMu M.shift)
  · exact funext (h.active setMu M.shiftPdal)

theorem ren_stepMatrix (h : SameProblem ρ C C') (ho : SameOptions C C') (i : StepIn X K (Hidden K n m) n m) (M : Mults K m)
    {h' : Hidden K n m} (hh : SameHidden ρ i.hidden h') :
    stepMatrix C' (renIn ρ h' i) (renMults ρ M) = ρ.kkt (stepMatrix C i M) := by
  simp only [stepMatrix, renIn, renEv, ho.kkt, ho.approx, ren_keptRows h, hh.hess, h.proxHess]
  rw [ren_hessian _ _ _ _ _ _ hh.vhps, ← ren_kktMatrix]
  congr 1
  cases C.kkt <;> rfl

theorem ren_stepRhs (h : SameProblem ρ C C') (ho : SameOptions C C') (i : StepIn X K (Hidden K n m) n m) (M : Mults K m)
    (h' : Hidden K n m) (a : Fin n ⊕ Fin m) :
    stepRhs C' (renIn ρ h' i) (renMults ρ M) a = stepRhs C i M (Sum.map ρ.var ρ.row a) := by
  rcases a with j | k
  · have s1 := ren_dual (ρ := ρ) i.ev.jac i.lam j
    have s2 := ren_dual (ρ := ρ) (maskRows (keptRows C.kkt C.sets i.setMu M) i.ev.jac) i.lam j
    have s3 := ren_dual (ρ := ρ) i.ev.jac M.lamsPlusReproj j
    have s4 := ren_dual (ρ := ρ) i.ev.jac M.lamsPdalReproj j
    simp only [maskRows] at s2
    simp only [stepRhs, renIn, renEv, ho.kkt, ren_keptRows h, Sum.elim_inl, Sum.map_inl]
    simp only [rhsPrimal, rhsCorrection, maskRows, renMults, s1, s2, s3, s4]
  · simp only [stepRhs, renIn, ho.kkt, Sum.elim_inr, Sum.map_inr]
    cases C.kkt <;> rfl

theorem ren_slope (rho beta setMu : K) (g pg : Fin n → K) (J : Fin m → Fin n → K) (lam lp : Fin m → K) (dx : Fin n → K) (dl : Fin m → K) :
    dmeritDir rho beta setMu (fun j => g (ρ.var j)) (fun j => pg (ρ.var j)) (fun i j => J (ρ.row i) (ρ.var j)) (fun i => lam (ρ.row i))
      (fun i => lp (ρ.row i)) (fun j => dx (ρ.var j)) (fun i => dl (ρ.row i)) = dmeritDir rho beta setMu g pg J lam lp dx dl := by
  have s := fun j => ren_dual (ρ := ρ) J lp j
  simp only [dmeritDir, meritGradient, meritDualGradient, s]
  rw [Equiv.sum_comp ρ.var (fun j => (g j + ∑ i, J i j * lp i + if 0 < rho then pg j else 0) * dx j),
    Equiv.sum_comp ρ.row (fun i => beta * setMu * (lam i - lp i) * dl i)]

theorem ren_phi (h : SameProblem ρ C C') (ho : SameOptions C C') (i : StepIn X K (Hidden K n m) n m) (h' : Hidden K n m) (dx : Fin n → K)
    (dl : Fin m → K) (a : K) :
    stepPhi C' (renIn ρ h' i) (fun j => dx (ρ.var j)) (fun k => dl (ρ.row k)) a = (stepPhi C i dx dl a).map (· + ρ.shift) := by
  have e := h.integrate i.x (fun j => a * dx j)
  simp only [stepPhi, renIn, e, h.eval, Option.map_map, h.proxVal, ho.beta]
  refine congrArg (fun f => Option.map f _) (funext fun fc => ?_)
  simp only [Function.comp]
  rw [ren_mults h i.mu i.setMu C.beta fc.2 (fun k => i.lam k + a * dl k) i.lamPrev]
  simp only [renMults]
  rw [ren_merit h i.setMu fc.1 _ (fun k => i.lam k + a * dl k)]
  ring

theorem findSome_map {α β γ : Type} (g : α → Option β) (F : β → γ) (l : List α) :
    (l.findSome? fun a => (g a).map F) = (l.findSome? g).map F := by
  induction l with
  | nil => rfl
  | cons a l ih =>
    simp only [List.findSome?_cons]
    cases g a with
    | none => exact ih
    | some b => rfl

theorem ren_buffers (h : SameProblem ρ C C') (ho : SameOptions C C') (i : StepIn X K (Hidden K n m) n m) (M : Mults K m) (h' : Hidden K n m)
    (dx : Fin n → K) (dl : Fin m → K) (tr : List K) :
    lsBuffers C' (renIn ρ h' i) (renMults ρ M) (fun j => dx (ρ.var j)) (fun k => dl (ρ.row k)) tr =
      renMults ρ (lsBuffers C i M dx dl tr) := by
  have e := fun a : K => h.integrate i.x (fun j => a * dx j)
  have hf : (tr.findSome? fun a => (C'.eval (C'.integrate (ρ.point i.x) fun j => a * dx (ρ.var j))).map fun fc => (a, fc.2)) =
      (tr.findSome? fun a => (C.eval (C.integrate i.x fun j => a * dx j)).map fun fc => (a, fc.2)).map
        fun q => (q.1, fun k => q.2 (ρ.row k)) := by
    rw [← findSome_map]
    refine congrArg (fun f => List.findSome? f tr) (funext fun a => ?_)
    rw [e, h.eval, Option.map_map, Option.map_map]
    rfl
  simp only [lsBuffers, renIn, hf, ho.beta]
  generalize (tr.findSome? fun a => (C.eval (C.integrate i.x fun j => a * dx j)).map fun fc => (a, fc.2)) = q
  rcases q with _ | ⟨a, c⟩
  · rfl
  · simp only [Option.map_some]
    rw [ren_mults h i.mu i.setMu C.beta c (fun k => i.lam k + a * dl k) i.lamPrev]

/-- directions that are the same up to names -/
def DirRel (ρ : Renaming X X' K n m) : Except String ((Fin n ⊕ Fin m → K) × InertiaSt K n m) →
    Except String ((Fin n ⊕ Fin m → K) × InertiaSt K n m) → Prop
  | .error e, .error e' => e' = e
  | .ok (d, st), .ok (d', st') => (∀ a, d' a = d (Sum.map ρ.var ρ.row a)) ∧ st'.deltaLast = st.deltaLast ∧ st'.fac = st.fac.map ρ.kkt
  | _, _ => False

/-- steps that are the same up to names -/
def OutRel (ρ : Renaming X X' K n m) : Except String (StepOut X K (Hidden K n m) m) →
    Except String (StepOut X' K (Hidden K n m) m) → Prop
  | .error e, .error e' => e' = e
  | .ok o, .ok o' => ∃ h, SameHidden ρ o.hidden h ∧ o' = renOut ρ h o
  | _, _ => False

theorem ren_step (h : SameProblem ρ C C') (ho : SameOptions C C') (hs : ConstantSafe ρ C) (i : StepIn X K (Hidden K n m) n m)
    {h' : Hidden K n m} (hh : SameHidden ρ i.hidden h')
    (hd : DirRel ρ (stepDirection C i (computeMultipliers C.sets i.mu i.setMu C.beta i.ev.c i.lam i.lamPrev))
      (stepDirection C' (renIn ρ h' i) (renMults ρ (computeMultipliers C.sets i.mu i.setMu C.beta i.ev.c i.lam i.lamPrev)))) :
    OutRel ρ (stepFull C i) (stepFull C' (renIn ρ h' i)) := by
  have hM := ren_mults h i.mu i.setMu C.beta i.ev.c i.lam i.lamPrev
  unfold stepFull
  simp only
  have hM' : computeMultipliers C'.sets (renIn ρ h' i).mu (renIn ρ h' i).setMu C'.beta (renIn ρ h' i).ev.c (renIn ρ h' i).lam
      (renIn ρ h' i).lamPrev = renMults ρ (computeMultipliers C.sets i.mu i.setMu C.beta i.ev.c i.lam i.lamPrev) := by
    rw [ho.beta]; exact hM
  rw [hM']
  generalize computeMultipliers C.sets i.mu i.setMu C.beta i.ev.c i.lam i.lamPrev = M at hd ⊢
  generalize stepDirection C i M = r at hd ⊢
  generalize stepDirection C' (renIn ρ h' i) (renMults ρ M) = r' at hd ⊢
  rcases r with e | ⟨d, st⟩ <;> rcases r' with e' | ⟨d', st'⟩
  · exact hd
  · exact hd.elim
  · exact hd.elim
  · obtain ⟨h1, h2, h3⟩ := hd
    have ex : (fun j => d' (.inl j)) = fun j => (fun j => d (.inl j)) (ρ.var j) := funext fun j => h1 (.inl j)
    have el : (fun k => d' (.inr k)) = fun k => (fun k => d (.inr k)) (ρ.row k) := funext fun k => h1 (.inr k)
    have el' : ∀ k, d' (.inr k) = d (.inr (ρ.row k)) := fun k => h1 (.inr k)
    have ex' : ∀ j, d' (.inl j) = d (.inl (ρ.var j)) := fun j => h1 (.inl j)
    simp only
    rw [ex, el, ho.beta, ho.sqrt, ho.sing, ho.ls, ho.fuel]
    have hsl : dmeritDir (renIn ρ h' i).rho C.beta (renIn ρ h' i).setMu (renIn ρ h' i).ev.grad (renIn ρ h' i).ev.proxGrad
        (renIn ρ h' i).ev.jac (renIn ρ h' i).lam (renMults ρ M).lamsPdal (fun j => (fun j => d (.inl j)) (ρ.var j))
        (fun k => (fun k => d (.inr k)) (ρ.row k)) =
        dmeritDir i.rho C.beta i.setMu i.ev.grad i.ev.proxGrad i.ev.jac i.lam M.lamsPdal (fun j => d (.inl j)) (fun k => d (.inr k)) :=
      ren_slope (ρ := ρ) i.rho C.beta i.setMu i.ev.grad i.ev.proxGrad i.ev.jac i.lam M.lamsPdal (fun j => d (.inl j)) (fun k => d (.inr k))
    rw [hsl]
    have hls := lsRun_shift C.sqrt C.sing (stepPhi C i (fun j => d (.inl j)) (fun k => d (.inr k)))
      (stepPhi C' (renIn ρ h' i) (fun j => (fun j => d (.inl j)) (ρ.var j)) (fun k => (fun k => d (.inr k)) (ρ.row k))) C.ls ρ.shift
      i.ev.merit (dmeritDir i.rho C.beta i.setMu i.ev.grad i.ev.proxGrad i.ev.jac i.lam M.lamsPdal (fun j => d (.inl j)) (fun k => d (.inr k)))
      C.fuel (ren_phi h ho i h' (fun j => d (.inl j)) (fun k => d (.inr k))) (by
        rcases hs with hs | ⟨ht, hs⟩
        · exact .inl hs
        · refine .inr ⟨fun a hn => ?_, hs⟩
          simp only [stepPhi, Option.map_eq_none_iff] at hn
          exact ht _ hn)
    have hm : (renIn ρ h' i).ev.merit = i.ev.merit + ρ.shift := rfl
    rw [hm, hls]
    cases hr : lsRun C.sqrt C.sing (stepPhi C i (fun j => d (.inl j)) (fun k => d (.inr k))) C.ls i.ev.merit
      (dmeritDir i.rho C.beta i.setMu i.ev.grad i.ev.proxGrad i.ev.jac i.lam M.lamsPdal (fun j => d (.inl j)) (fun k => d (.inr k))) C.fuel with
    | none => exact rfl
    | some r =>
      simp only [Option.map_some]
      refine ⟨{ h' with deltaLast := st'.deltaLast, fac := st'.fac }, ⟨hh.hess, hh.vhps, hh.isInit, hh.isPsd, hh.isValid, hh.xPrev, hh.gPrev,
        h2, h3⟩, ?_⟩
      have hb := ren_buffers h ho i M h' (fun j => d (.inl j)) (fun k => d (.inr k)) (r.trace ++ r.trace0)
      rw [hb]
      have hi := h.integrate i.x (fun j => r.alpha * d (.inl j))
      simp only [renOut, renMults, ex', el']
      rw [← hi]
      rfl

/-! ### Hessian approximation -/

theorem ren_bfgsMatrix (s y : Fin n → K) (H : Matrix (Fin n) (Fin n) K) :
    bfgsMatrix .hessian (fun j => s (ρ.var j)) (fun j => y (ρ.var j)) (ρ.mat H) = ρ.mat (bfgsMatrix .hessian s y H) := by
  have hsy : ∑ i, s (ρ.var i) * y (ρ.var i) = ∑ i, s i * y i := Equiv.sum_comp ρ.var (fun i => s i * y i)
  ext a b
  simp only [bfgsMatrix, hsy, Renaming.mat, Matrix.of_apply, Matrix.add_apply, Matrix.mul_apply, Matrix.transpose_apply]
  congr 1
  refine Eq.trans ?_ (Equiv.sum_comp ρ.var (fun k => (∑ l, ((if ρ.var a = l then (1 : K) else 0) - y (ρ.var a) * s l / ∑ i, s i * y i) *
    H l k) * ((if ρ.var b = k then (1 : K) else 0) - y (ρ.var b) * s k / ∑ i, s i * y i)))
  refine Finset.sum_congr rfl fun k _ => ?_
  congr 1
  · refine Eq.trans ?_ (Equiv.sum_comp ρ.var (fun l => ((if ρ.var a = l then (1 : K) else 0) - y (ρ.var a) * s l / ∑ i, s i * y i) *
      H l (ρ.var k)))
    refine Finset.sum_congr rfl fun l _ => ?_
    simp only [EmbeddingLike.apply_eq_iff_eq]
  · simp only [EmbeddingLike.apply_eq_iff_eq]

theorem ren_hessUpdate (h : SameProblem ρ C C') (ho : SameOptions C C') (hd hd' : Hidden K n m) (hh : SameHidden ρ hd hd') (x : X)
    (g : Fin n → K) (l : Fin m → K) :
    SameHidden ρ (hessUpdate C hd x g l) (hessUpdate C' hd' (ρ.point x) (fun j => g (ρ.var j)) (fun i => l (ρ.row i))) := by
  unfold hessUpdate
  rw [ho.approx]
  cases hap : C.approx with
  | exact => exact ⟨h.objHess x, fun e => h.cstrVhp e x l, hh.isInit, hh.isPsd, hh.isValid, hh.xPrev, hh.gPrev, hh.deltaLast, hh.fac⟩
  | gaussNewton => exact ⟨h.objHess x, fun e => h.cstrVhp e x l, hh.isInit, hh.isPsd, hh.isValid, hh.xPrev, hh.gPrev, hh.deltaLast, hh.fac⟩
  | identity => exact ⟨mat_one.symm, hh.vhps, hh.isInit, hh.isPsd, hh.isValid, hh.xPrev, hh.gPrev, hh.deltaLast, hh.fac⟩
  | bfgs =>
    simp only [Bfgs.update, Bfgs.init, hh.isInit, hh.isValid]
    by_cases hi : hd.bfgs.isInit = false
    · simp only [if_pos hi]
      by_cases hv : hd.bfgs.isValid = false
      · simp only [if_pos hv, Option.map_none]
        exact hh
      · simp only [if_neg hv, Option.map_some]
        exact ⟨hh.hess, hh.vhps, rfl, hh.isPsd, rfl, fun _ j => h.coords x j, fun _ _ => rfl, hh.deltaLast, hh.fac⟩
    · have hi' : hd.bfgs.isInit = true := by simpa using hi
      have es : (fun j => C'.coords (ρ.point x) j - hd'.bfgs.xPrev j) =
          fun j => (fun j => C.coords x j - hd.bfgs.xPrev j) (ρ.var j) := by
        funext j
        rw [h.coords, hh.xPrev hi']
        ring
      have ey : (fun j => g (ρ.var j) - hd'.bfgs.gPrev j) = fun j => (fun j => g j - hd.bfgs.gPrev j) (ρ.var j) := by
        funext j
        rw [hh.gPrev hi']
      have esy : ∑ j, (C'.coords (ρ.point x) j - hd'.bfgs.xPrev j) * (g (ρ.var j) - hd'.bfgs.gPrev j) =
          ∑ j, (C.coords x j - hd.bfgs.xPrev j) * (g j - hd.bfgs.gPrev j) := by
        refine Eq.trans (Finset.sum_congr rfl fun j _ => ?_)
          (Equiv.sum_comp ρ.var (fun j => (C.coords x j - hd.bfgs.xPrev j) * (g j - hd.bfgs.gPrev j)))
        rw [congrFun es j, congrFun ey j]
      simp only [if_neg hi, esy]
      by_cases hp : 0 < ∑ j, (C.coords x j - hd.bfgs.xPrev j) * (g j - hd.bfgs.gPrev j)
      · simp only [if_pos hp]
        refine ⟨?_, hh.vhps, rfl, rfl, rfl, fun _ j => h.coords x j, fun _ _ => rfl, hh.deltaLast, hh.fac⟩
        simp only
        rw [es, ey, hh.hess]
        exact ren_bfgsMatrix (fun j => C.coords x j - hd.bfgs.xPrev j) (fun j => g j - hd.bfgs.gPrev j) hd.hess
      · simp only [if_neg hp]
        exact ⟨hh.hess, hh.vhps, rfl, rfl, rfl, fun _ j => h.coords x j, fun _ _ => rfl, hh.deltaLast, hh.fac⟩

/-! ### Directions -/

theorem ren_addDiag (A : Matrix (Fin n ⊕ Fin m) (Fin n ⊕ Fin m) K) (d : K) :
    addPrimalDiag (ρ.kkt A) d = ρ.kkt (addPrimalDiag A d) := by
  ext a b
  rcases a with a | a <;> rcases b with b | b <;> simp [addPrimalDiag, Renaming.kkt]

/-- states of the regularisation loop that are the same up to names -/
structure LoopRel (ρ : Renaming X X' K n m) (s s' : InertiaSt K n m) : Prop where
  delta : s'.delta = s.delta
  deltaLast : s'.deltaLast = s.deltaLast
  mat : s'.mat = ρ.kkt s.mat
  flag : s'.flag = s.flag
  fac : s'.fac = s.fac.map ρ.kkt

theorem ren_inertia (p : InertiaParams K) (B B' : Backend K n m) (hB : SameBackend ρ B B') : ∀ (fuel : ℕ) (s s' : InertiaSt K n m),
    LoopRel ρ s s' →
    (inertiaLoop p B.sig fuel s = none ∧ inertiaLoop p B'.sig fuel s' = none) ∨
    (∃ e, inertiaLoop p B.sig fuel s = some (.error e) ∧ inertiaLoop p B'.sig fuel s' = some (.error e)) ∨
    ∃ t t', inertiaLoop p B.sig fuel s = some (.ok t) ∧ inertiaLoop p B'.sig fuel s' = some (.ok t') ∧ LoopRel ρ t t' := by
  intro fuel
  induction fuel with
  | zero => intro s s' _; exact .inl ⟨rfl, rfl⟩
  | succ fuel ih =>
    intro s s' h
    unfold inertiaLoop
    by_cases hc : s.flag ≠ .ok ∧ s.delta ≤ p.deltaMax
    · have hc' : s'.flag ≠ .ok ∧ s'.delta ≤ p.deltaMax := by rw [h.flag, h.delta]; exact hc
      simp only [if_pos hc, if_pos hc']
      have ea : (if 0 < s'.delta then addPrimalDiag s'.mat s'.delta else s'.mat) =
          ρ.kkt (if 0 < s.delta then addPrimalDiag s.mat s.delta else s.mat) := by
        rw [h.delta, h.mat]
        split
        · exact ren_addDiag _ _
        · rfl
      rw [ea]
      generalize (if 0 < s.delta then addPrimalDiag s.mat s.delta else s.mat) = A
      rw [hB.sig, ren_addDiag, h.delta, h.deltaLast]
      cases checkInertia n m (B.sig A) with
      | none => exact .inr (.inl ⟨_, rfl, rfl⟩)
      | some f =>
        cases f with
        | ok => exact .inr (.inr ⟨_, _, rfl, rfl, ⟨rfl, rfl, rfl, rfl, rfl⟩⟩)
        | bad =>
          simp only
          by_cases h1 : s.delta = 0 <;> by_cases h2 : s.deltaLast = 0 <;> simp only [h1, h2, if_true, if_false] <;>
            exact ih _ _ ⟨rfl, rfl, rfl, rfl, rfl⟩
        | hasZeros =>
          simp only
          by_cases h1 : s.delta = 0 <;> by_cases h2 : s.deltaLast = 0 <;> simp only [h1, h2, if_true, if_false] <;>
            exact ih _ _ ⟨rfl, rfl, rfl, rfl, rfl⟩
    · have hc' : ¬ (s'.flag ≠ .ok ∧ s'.delta ≤ p.deltaMax) := by rw [h.flag, h.delta]; exact hc
      simp only [if_neg hc, if_neg hc']
      exact .inr (.inr ⟨s, s', rfl, rfl, h⟩)

theorem refineLoop_perm {N : ℕ} (q : Equiv.Perm (Fin N)) (A A' : Fin N → Fin N → K) (rhs rhs' : Fin N → K) (tol : K)
    (solve solve' : (Fin N → K) → Fin N → K) (hA : ∀ i j, A' i j = A (q i) (q j)) (hr : ∀ i, rhs' i = rhs (q i))
    (hs : ∀ b i, solve' (fun c => b (q c)) i = solve b (q i)) : ∀ (k : ℕ) (step : Fin N → K) (cnt : ℕ),
    (refineLoop A' rhs' tol solve' k (fun i => step (q i)) cnt).2.1 = fun i => (refineLoop A rhs tol solve k step cnt).2.1 (q i) := by
  intro k
  induction k with
  | zero => intros; rfl
  | succ k ih =>
    intro step cnt
    have e : (fun i => -rhs' i - ∑ j, A' i j * step (q j)) = fun i => (fun i => -rhs i - ∑ j, A i j * step j) (q i) := by
      funext i
      simp only [hr, hA]
      rw [Equiv.sum_comp q (fun j => A (q i) j * step j)]
    have hn : inftyNorm (fun i => -rhs' i - ∑ j, A' i j * step (q j)) = inftyNorm (fun i => -rhs i - ∑ j, A i j * step j) := by
      rw [e]; exact inftyNorm_perm q (fun i => -rhs i - ∑ j, A i j * step j)
    simp only [refineLoop, hn]
    split
    · rfl
    · rw [e]
      have := ih (fun i => step i + solve (fun i => -rhs i - ∑ j, A i j * step j) i) (cnt + 1)
      rw [← this]
      congr 3
      funext i
      exact congrArg (step (q i) + ·) (hs (fun i => -rhs i - ∑ j, A i j * step j) i)

/-- the renaming of rows and variables as a permutation of the rows of the linear system -/
def Spec.Renaming.flat (ρ : Renaming X X' K n m) : Equiv.Perm (Fin (n + m)) :=
  finSumFinEquiv.symm.trans ((Equiv.sumCongr ρ.var ρ.row).trans finSumFinEquiv)

theorem flat_symm (ρ : Renaming X X' K n m) (a : Fin (n + m)) :
    finSumFinEquiv.symm (ρ.flat a) = Sum.map ρ.var ρ.row (finSumFinEquiv.symm a) := by
  simp [Renaming.flat]

theorem ren_direction (h : SameProblem ρ C C') (ho : SameOptions C C') (hB : SameBackend ρ C.backend C'.backend)
    (hi : C'.inertia = C.inertia) (ht : C'.refineTol = C.refineTol) (hst : C'.refineSteps = C.refineSteps)
    (i : StepIn X K (Hidden K n m) n m) (M : Mults K m) {h' : Hidden K n m} (hh : SameHidden ρ i.hidden h') :
    DirRel ρ (stepDirection C i M) (stepDirection C' (renIn ρ h' i) (renMults ρ M)) := by
  unfold stepDirection
  simp only [ren_stepMatrix h ho i M hh, hi, ho.fuel, ht, hst]
  have hl : LoopRel ρ (inertiaStart C.inertia (stepMatrix C i M) i.hidden.deltaLast i.hidden.fac)
      (inertiaStart C.inertia (ρ.kkt (stepMatrix C i M)) (renIn ρ h' i).hidden.deltaLast (renIn ρ h' i).hidden.fac) :=
    ⟨rfl, hh.deltaLast, rfl, rfl, hh.fac⟩
  rcases ren_inertia C.inertia C.backend C'.backend hB C.fuel _ _ hl with ⟨e1, e2⟩ | ⟨e, e1, e2⟩ | ⟨t, t', e1, e2, ht⟩
  · rw [e1, e2]; exact rfl
  · rw [e1, e2]; exact rfl
  · rw [e1, e2]
    simp only
    rw [ht.fac]
    cases t.fac with
    | none => exact rfl
    | some F =>
      simp only [Option.map_some]
      refine ⟨fun a => ?_, ht.deltaLast, by rw [ht.fac]⟩
      have hs : ∀ (b : Fin (n + m) → K) (j : Fin (n + m)), C'.backend.solve (ρ.kkt F) (fun c => b (ρ.flat c)) j =
          C.backend.solve F b (ρ.flat j) := by
        intro b j
        have := hB.solve F (fun c => b (finSumFinEquiv c)) j
        simp only [Equiv.apply_symm_apply] at this
        exact this
      have key := refineLoop_perm ρ.flat (fun a b => t.mat (finSumFinEquiv.symm a) (finSumFinEquiv.symm b))
        (fun a b => t'.mat (finSumFinEquiv.symm a) (finSumFinEquiv.symm b)) (fun a => stepRhs C i M (finSumFinEquiv.symm a))
        (fun a => stepRhs C' (renIn ρ h' i) (renMults ρ M) (finSumFinEquiv.symm a)) C.refineTol (C.backend.solve F)
        (C'.backend.solve (ρ.kkt F)) (fun a b => by rw [ht.mat, flat_symm, flat_symm]; rfl)
        (fun a => by rw [ren_stepRhs h ho, flat_symm]) hs C.refineSteps (C.backend.solve F fun a => -stepRhs C i M (finSumFinEquiv.symm a)) 1
      have h0 : (C'.backend.solve (ρ.kkt F) fun a => -stepRhs C' (renIn ρ h' i) (renMults ρ M) (finSumFinEquiv.symm a)) =
          fun j => C.backend.solve F (fun a => -stepRhs C i M (finSumFinEquiv.symm a)) (ρ.flat j) := by
        funext j
        rw [← hs]
        congr 1
        funext a
        rw [ren_stepRhs h ho, flat_symm]
      simp only [iterativeRefinement]
      rw [h0, key]
      simp only
      simp [Renaming.flat, Equiv.sumCongr]

/-- with an exact linear solver a direction is computed (unless the model's own bound on the passes is zero) -/
theorem stepDirection_exact_ok (C : StepCfg X K n m) (h0 : C.inertia.deltaInit = 0) (hmax : 0 ≤ C.inertia.deltaMax)
    (i : StepIn X K (Hidden K n m) n m) (M : Mults K m) (hB : ExactAt C.backend (stepMatrix C i M)) (hf : C.fuel ≠ 0) :
    ∃ d st, stepDirection C i M = .ok (d, st) := by
  obtain ⟨f, hf⟩ := Nat.exists_eq_succ_of_ne_zero hf
  have hs := inertiaLoop_succ C.inertia C.backend.sig f
    (inertiaStart C.inertia (stepMatrix C i M) i.hidden.deltaLast i.hidden.fac)
    (by simp [inertiaStart]) (by simp [inertiaStart, h0, hmax]) (by simp [inertiaStart, h0]) .ok (by
      simp only [inertiaStart, h0]; rw [shifted_zero]; exact hB.1)
  unfold stepDirection
  rw [hf]
  simp only [Nat.succ_eq_add_one, hs, if_true]
  exact ⟨_, _, rfl⟩

theorem ren_mulVec (A : Matrix (Fin n ⊕ Fin m) (Fin n ⊕ Fin m) K) (d : Fin n ⊕ Fin m → K) (a : Fin n ⊕ Fin m) :
    (ρ.kkt A).mulVec (fun b => d (Sum.map ρ.var ρ.row b)) a = A.mulVec d (Sum.map ρ.var ρ.row a) := by
  simp only [Matrix.mulVec, dotProduct, Renaming.kkt, Matrix.of_apply]
  exact Equiv.sum_comp (Equiv.sumCongr ρ.var ρ.row) (fun b => A (Sum.map ρ.var ρ.row a) b * d b)

theorem ren_direction_exact (h : SameProblem ρ C C') (ho : SameOptions C C') (hp : GoodParams C.inertia) (hp' : GoodParams C'.inertia)
    (h0 : C.inertia.deltaInit = 0) (h0' : C'.inertia.deltaInit = 0) (hm : 0 ≤ C.inertia.deltaMax) (hm' : 0 ≤ C'.inertia.deltaMax)
    (i : StepIn X K (Hidden K n m) n m) (M : Mults K m) {h' : Hidden K n m} (hh : SameHidden ρ i.hidden h')
    (hB : ExactAt C.backend (stepMatrix C i M)) (hB' : ExactAt C'.backend (ρ.kkt (stepMatrix C i M)))
    (hdet : (ρ.kkt (stepMatrix C i M)).det ≠ 0) :
    DirRel ρ (stepDirection C i M) (stepDirection C' (renIn ρ h' i) (renMults ρ M)) := by
  have hmat := ren_stepMatrix h ho i M hh
  by_cases hf : C.fuel = 0
  · have hf' : C'.fuel = 0 := by rw [ho.fuel, hf]
    simp only [stepDirection, hf, hf', inertiaLoop]
    exact rfl
  · have hf' : C'.fuel ≠ 0 := by rw [ho.fuel]; exact hf
    rw [← hmat] at hB'
    obtain ⟨d, st, e⟩ := stepDirection_exact_ok C h0 hm i M hB hf
    obtain ⟨d', st', e'⟩ := stepDirection_exact_ok C' h0' hm' (renIn ρ h' i) (renMults ρ M) hB' hf'
    obtain ⟨s1, s2, s3⟩ := stepDirection_exact C hp h0 hm i M hB d st e
    obtain ⟨s1', s2', s3'⟩ := stepDirection_exact C' hp' h0' hm' (renIn ρ h' i) (renMults ρ M) hB' d' st' e'
    rw [e, e']
    refine ⟨?_, by rw [s2, s2'], by rw [s3, s3', hmat]; rfl⟩
    rw [hmat] at s1'
    have hu : (ρ.kkt (stepMatrix C i M)).mulVec d' =
        (ρ.kkt (stepMatrix C i M)).mulVec (fun b => d (Sum.map ρ.var ρ.row b)) := by
      funext a
      rw [s1', ren_mulVec, s1, Pi.neg_apply, Pi.neg_apply, ren_stepRhs h ho]
    exact congrFun (Matrix.mulVec_injective_of_isUnit ((Matrix.isUnit_iff_isUnit_det _).2 (isUnit_iff_ne_zero.2 hdet)) hu)

/-! ### The loops -/

/-- the steps agree at every state the loops reach: penalty and proximal parameters satisfying `G`, Hessian computed at the point -/
def StepsAgree (ρ : Renaming X X' K n m) (C : StepCfg X K n m) (C' : StepCfg X' K n m) (G : K → K → Prop) : Prop :=
  ∀ (i : StepIn X K (Hidden K n m) n m) (h' : Hidden K n m), G i.mu i.rho →
    (∃ h0, i.hidden = hessUpdate C h0 i.x i.ev.grad i.ev.lamsPdal) → SameHidden ρ i.hidden h' →
    OutRel ρ (stepFull C i) (stepFull C' (renIn ρ h' i))

theorem ren_afterEval (h : SameProblem ρ C C') (st : St X K (Hidden K n m) m) (v mer : K) (hd : Hidden K n m) (ev : EvalOut K n m) :
    afterEval (concreteCtx C') (ρ.state v mer hd st) (renEv ρ ev) =
      ρ.state (ev.value + ρ.shift) (ev.merit + ρ.shift)
        (hessUpdate C' hd (ρ.point st.xOpt) (fun j => ev.grad (ρ.var j)) (fun i => ev.lamsPdal (ρ.row i))) (afterEval (concreteCtx C) st ev) := by
  have ha : (C'.sets.active st.setMu fun i => ev.shift (ρ.row i)) = fun i => C.sets.active st.setMu ev.shift (ρ.row i) :=
    funext (h.active st.setMu ev.shift)
  have hp := h.projection st.setMu (fun i => ev.c i + st.mu * st.lamsOpt i)
  simp only [afterEval, concreteCtx, Renaming.state, renEv, primErr, ha, hp]

theorem ren_acceptStep (st : St X K (Hidden K n m) m) (v mer : K) (hd h2 : Hidden K n m) (o : StepOut X K (Hidden K n m) m) :
    acceptStep (ρ.state v mer hd st) (renOut ρ h2 o) = ρ.state v (o.merit + ρ.shift) h2 (acceptStep st o) := by
  simp only [acceptStep, invokeCallbacks, Renaming.state, renOut, List.map_append, List.map_map, List.map_cons, List.map_nil]
  rfl

theorem ren_inner (h : SameProblem ρ C C') (ho : SameOptions C C') {G : K → K → Prop} (hs : StepsAgree ρ C C' G) (S : Settings K) :
    ∀ (k : ℕ) (st : St X K (Hidden K n m) m) (v mer : K) (hd : Hidden K n m), S.maxIters - st.numIters ≤ k → G st.mu st.rho →
      SameHidden ρ st.hidden hd →
      SameOutcome ρ (innerLoop (concreteCtx C) S st) (innerLoop (concreteCtx C') S (ρ.state v mer hd st)) := by
  intro k
  induction k with
  | zero => ?_
  | succ k ih => ?_
  all_goals
    intro st v mer hd hk hG hh
    rw [innerLoop, innerLoop]
    have he := ren_evalAt h S st.mu st.setMu st.rho st.target st.xOpt st.lamsOpt st.lamsPrev
    have he' : evalAt (concreteCtx C') S (ρ.state v mer hd st).mu (ρ.state v mer hd st).setMu (ρ.state v mer hd st).rho
        (ρ.state v mer hd st).target (ρ.state v mer hd st).xOpt (ρ.state v mer hd st).lamsOpt (ρ.state v mer hd st).lamsPrev =
        (evalAt (concreteCtx C) S st.mu st.setMu st.rho st.target st.xOpt st.lamsOpt st.lamsPrev).map (renEv ρ) := he
    rw [he']
    cases evalAt (concreteCtx C) S st.mu st.setMu st.rho st.target st.xOpt st.lamsOpt st.lamsPrev with
    | none => exact rfl
    | some ev =>
      simp only [Option.map_some]
      have hic : (renEv ρ ev).innerCrit = ev.innerCrit := by
        simp only [EvalOut.innerCrit, renEv]
        rw [inftyNorm_perm ρ.var, inftyNorm_perm ρ.row]
      have hoc : (renEv ρ ev).outerCrit = ev.outerCrit := rfl
      have hit : (ρ.state v mer hd st).innerTol = st.innerTol := rfl
      have hh1 := ren_hessUpdate h ho st.hidden hd hh st.xOpt ev.grad ev.lamsPdal
      rw [hic, hoc, hit, ren_afterEval h]
      by_cases hc : ev.innerCrit ≤ st.innerTol ∨ ev.outerCrit ≤ S.targetTol
      · rw [if_pos hc, if_pos hc]
        exact ⟨_, hh1, rfl⟩
      · rw [if_neg hc, if_neg hc]
        have hst := hs (stepIn (afterEval (concreteCtx C) st ev) ev) _ hG ⟨st.hidden, rfl⟩ hh1
        have hin : renIn ρ (hessUpdate C' hd (ρ.point st.xOpt) (fun j => ev.grad (ρ.var j)) fun i => ev.lamsPdal (ρ.row i))
            (stepIn (afterEval (concreteCtx C) st ev) ev) =
            stepIn (ρ.state (ev.value + ρ.shift) (ev.merit + ρ.shift)
              (hessUpdate C' hd (ρ.point st.xOpt) (fun j => ev.grad (ρ.var j)) fun i => ev.lamsPdal (ρ.row i))
              (afterEval (concreteCtx C) st ev)) (renEv ρ ev) := rfl
        rw [hin] at hst
        have hc1 : (concreteCtx C).step (stepIn (afterEval (concreteCtx C) st ev) ev) = stepFull C (stepIn (afterEval (concreteCtx C) st ev) ev) := rfl
        rw [hc1]
        have hc2 : ∀ i, (concreteCtx C').step i = stepFull C' i := fun _ => rfl
        rw [hc2]
        generalize stepFull C (stepIn (afterEval (concreteCtx C) st ev) ev) = r at hst ⊢
        generalize stepFull C' _ = r' at hst ⊢
        rcases r with e | o <;> rcases r' with e' | o'
        · exact hst
        · exact hst.elim
        · exact hst.elim
        · obtain ⟨h2, hh2, rfl⟩ := hst
          simp only [ren_acceptStep]
          have hn : (ρ.state v mer hd st).numIters = st.numIters := rfl
          rw [hn]
          by_cases hm : st.numIters + 1 ≥ S.maxIters
          · rw [if_pos hm, if_pos hm]
            exact ⟨h2, hh2, rfl⟩
          · rw [if_neg hm, if_neg hm]
            first
              | (exfalso; omega)
              | exact ih { acceptStep (afterEval (concreteCtx C) st ev) o with numIters := st.numIters + 1 } (ev.value + ρ.shift)
                  (o.merit + ρ.shift) h2 (by simp only; omega) hG hh2

theorem ren_afterInner (S : Settings K) (st : St X K (Hidden K n m) m) (v mer : K) (hd : Hidden K n m) :
    afterInner S (ρ.state v mer hd st) = ρ.state v mer hd (afterInner S st) := by
  have h1 : ({ ρ.state v mer hd st with
      xPrev := (ρ.state v mer hd st).xOpt, target := (ρ.state v mer hd st).xOpt
      endLog := (ρ.state v mer hd st).endLog ++ [⟨(ρ.state v mer hd st).prim, (ρ.state v mer hd st).dual, (ρ.state v mer hd st).xOpt⟩] } :
        St X' K (Hidden K n m) m) =
      ρ.state v mer hd { st with xPrev := st.xOpt, target := st.xOpt, endLog := st.endLog ++ [⟨st.prim, st.dual, st.xOpt⟩] } := by
    simp only [Renaming.state, List.map_append, List.map_cons, List.map_nil]
  have h2 : ∀ s : St X K (Hidden K n m) m, acceptMultipliers S (ρ.state v mer hd s) = ρ.state v mer hd (acceptMultipliers S s) := by
    intro s; unfold acceptMultipliers; cases S.mode <;> rfl
  have h3 : ∀ s : St X K (Hidden K n m) m, updatePenalty S (ρ.state v mer hd s) = ρ.state v mer hd (updatePenalty S s) := by
    intro s; unfold updatePenalty
    by_cases e : s.mu = S.muLower
    · rw [if_pos e, if_pos (show (ρ.state v mer hd s).mu = S.muLower from e)]; rfl
    · rw [if_neg e, if_neg (show ¬(ρ.state v mer hd s).mu = S.muLower from e)]; rfl
  unfold afterInner
  simp only [h1, h2, h3]
  by_cases e : st.prim < st.primTol
  · rw [if_pos e]
    exact if_pos e
  · rw [if_neg e]
    exact if_neg e

theorem afterInner_hidden (S : Settings K) (st : St X K (Hidden K n m) m) : (afterInner S st).hidden = st.hidden := by
  simp only [afterInner, updateToleranceSuccess, updateToleranceFailure, tolerancePostUpdate, updatePenalty, setPenalty, acceptMultipliers]
  split_ifs <;> rfl

theorem afterInner_value (S : Settings K) (st : St X K (Hidden K n m) m) : (afterInner S st).value = st.value := by
  simp only [afterInner, updateToleranceSuccess, updateToleranceFailure, tolerancePostUpdate, updatePenalty, setPenalty, acceptMultipliers]
  split_ifs <;> rfl

theorem afterInner_merit (S : Settings K) (st : St X K (Hidden K n m) m) : (afterInner S st).merit = st.merit := by
  simp only [afterInner, updateToleranceSuccess, updateToleranceFailure, tolerancePostUpdate, updatePenalty, setPenalty, acceptMultipliers]
  split_ifs <;> rfl

theorem afterInner_mu_cases (S : Settings K) (st : St X K (Hidden K n m) m) :
    (afterInner S st).mu = st.mu ∨ (afterInner S st).mu = S.muInit ∨ (afterInner S st).mu = max (st.mu * S.muUpdateFactor) S.muLower := by
  rw [afterInner_mu]
  split_ifs
  · exact .inl rfl
  · exact .inr (.inl rfl)
  · exact .inr (.inr rfl)

/-- conditions on penalty and proximal parameter that the updates keep -/
structure Kept (S : Settings K) (G : K → K → Prop) : Prop where
  init : G S.muInit S.rhoInit
  reset : ∀ mu rho, G mu rho → G S.muInit rho
  mu : ∀ mu rho, G mu rho → G (max (mu * S.muUpdateFactor) S.muLower) rho
  rho : ∀ mu rho, G mu rho → G mu (rho * S.rhoUpdateFactor)

theorem ren_outer (h : SameProblem ρ C C') (ho : SameOptions C C') {G : K → K → Prop} (hs : StepsAgree ρ C C' G) (S : Settings K)
    (hG : Kept S G) : ∀ (k : ℕ) (st : St X K (Hidden K n m) m) (v mer : K) (hd : Hidden K n m), S.maxAlIters - st.alIters ≤ k →
      G st.mu st.rho → SameHidden ρ st.hidden hd →
      ((st.numIters < S.maxIters ∧ st.alIters < S.maxAlIters) ∨ (v = st.value + ρ.shift ∧ mer = st.merit + ρ.shift)) →
      SameOutcome ρ (outerLoop (concreteCtx C) S st) (outerLoop (concreteCtx C') S (ρ.state v mer hd st)) := by
  intro k
  induction k with
  | zero => ?_
  | succ k ih => ?_
  all_goals
    intro st v mer hd hk hg hh hv
    rw [outerLoop, outerLoop]
    have hn : (ρ.state v mer hd st).numIters = st.numIters := rfl
    have ha : (ρ.state v mer hd st).alIters = st.alIters := rfl
    rw [hn, ha]
    by_cases hc : st.numIters < S.maxIters ∧ st.alIters < S.maxAlIters
    · first
        | (exfalso; omega)
        | (rw [if_pos hc, if_pos hc]
           have hstart : startOuter (concreteCtx C') (ρ.state v mer hd st) =
               ρ.state v mer { hd with deltaLast := 0 } (startOuter (concreteCtx C) st) := by
             simp only [startOuter, Renaming.state, concreteCtx, List.map_append, List.map_cons, List.map_nil]
           rw [hstart]
           have hin := ren_inner h ho hs S _ (startOuter (concreteCtx C) st) v mer { hd with deltaLast := 0 } le_rfl hg
             ⟨hh.hess, hh.vhps, hh.isInit, hh.isPsd, hh.isValid, hh.xPrev, hh.gPrev, rfl, hh.fac⟩
           have hfr := innerLoop_frame (concreteCtx C) S (startOuter (concreteCtx C) st)
           generalize innerLoop (concreteCtx C) S (startOuter (concreteCtx C) st) = r at hin hfr ⊢
           generalize innerLoop (concreteCtx C') S _ = r' at hin ⊢
           rcases r with e | r <;> rcases r' with e' | r'
           · exact hin
           · exact hin.elim
           · exact hin.elim
           · obtain ⟨h2, hh2, rfl⟩ := hin
             have hfr := hfr r rfl
             simp only [ren_afterInner]
             have hcrit : ∀ s : St X K (Hidden K n m) m, max (ρ.state (r.value + ρ.shift) (r.merit + ρ.shift) h2 s).prim
               (ρ.state (r.value + ρ.shift) (r.merit + ρ.shift) h2 s).dual = max s.prim s.dual := fun _ => rfl
             rw [hcrit]
             by_cases hq : max (afterInner S r).prim (afterInner S r).dual < S.targetTol
             · rw [if_pos hq, if_pos hq]
               refine ⟨h2, by rw [← afterInner_hidden S r] at hh2; exact hh2, ?_⟩
               rw [← afterInner_value S r, ← afterInner_merit S r]
               rfl
             · rw [if_neg hq, if_neg hq]
               have hmu : r.mu = st.mu := hfr.mu
               have hrho : r.rho = st.rho := hfr.rho
               have hg2 : G (afterInner S r).mu (afterInner S r).rho := by
                 rw [afterInner_rho, hrho]
                 rcases afterInner_mu_cases S r with e | e | e <;> rw [e]
                 · rw [hmu]; exact hg
                 · exact hG.reset _ _ hg
                 · rw [hmu]; exact hG.mu _ _ hg
               refine ih { setProxParameter (afterInner S r) ((afterInner S r).rho * S.rhoUpdateFactor) with alIters := st.alIters + 1 }
                 (r.value + ρ.shift) (r.merit + ρ.shift) h2 ?_ ?_ ?_ ?_
               · simp only; omega
               · exact hG.rho _ _ hg2
               · rw [← afterInner_hidden S r] at hh2; exact hh2
               · right
                 rw [← afterInner_value S r, ← afterInner_merit S r]
                 exact ⟨rfl, rfl⟩)
    · rw [if_neg hc, if_neg hc]
      rcases hv with hv | ⟨rfl, rfl⟩
      · exact absurd hv hc
      · exact ⟨hd, hh, rfl⟩

theorem ren_initSolve (S : Settings K) (st : St X K (Hidden K n m) m) (v mer : K) (hd : Hidden K n m) (x0 : X) (k : ℕ)
    (l l' : Fin k → K) (hl : ∀ (e : k = m) (i : Fin m), l' (Fin.cast e.symm i) = l (Fin.cast e.symm (ρ.row i))) :
    initSolve S (ρ.state v mer hd st) (ρ.point x0) k l' = ρ.state v mer hd (initSolve S st x0 k l) := by
  by_cases e : k = m
  · subst e
    have hl' := hl rfl
    simp only [Fin.cast_eq_self] at hl'
    simp only [initSolve, setPenalty, setProxParameter, updateToleranceFailure, tolerancePostUpdate, Renaming.state, dif_pos, Fin.cast_eq_self,
      hl', List.map_nil]
  · simp only [initSolve, setPenalty, setProxParameter, updateToleranceFailure, tolerancePostUpdate, Renaming.state, dif_neg e, List.map_nil]

theorem initSolve_hidden (S : Settings K) (st : St X K (Hidden K n m) m) (x0 : X) (k : ℕ) (l : Fin k → K) :
    (initSolve S st x0 k l).hidden = st.hidden ∧ (initSolve S st x0 k l).mu = S.muInit ∧ (initSolve S st x0 k l).rho = S.rhoInit ∧
      (initSolve S st x0 k l).numIters = 0 ∧ (initSolve S st x0 k l).alIters = 0 := by
  by_cases e : k = m
  · subst e
    simp [initSolve, setPenalty, setProxParameter, updateToleranceFailure, tolerancePostUpdate]
  · simp [initSolve, setPenalty, setProxParameter, updateToleranceFailure, tolerancePostUpdate, e]

theorem ren_solve (h : SameProblem ρ C C') (ho : SameOptions C C') {G : K → K → Prop} (hs : StepsAgree ρ C C' G) (S : Settings K)
    (hG : Kept S G) (hi : 0 < S.maxIters) (ha : 0 < S.maxAlIters) (st : St X K (Hidden K n m) m) (st' : St X' K (Hidden K n m) m)
    (hst : SameState ρ st st') (x0 : X) (k : ℕ) (l l' : Fin k → K)
    (hl : ∀ (e : k = m) (i : Fin m), l' (Fin.cast e.symm i) = l (Fin.cast e.symm (ρ.row i))) :
    SameOutcome ρ (solve (concreteCtx C) S st x0 k l) (solve (concreteCtx C') S st' (ρ.point x0) k l') := by
  obtain ⟨v, mer, hd, hh, rfl⟩ := hst
  unfold solve
  have hset : (ρ.state v mer hd st).hasSetup = st.hasSetup := rfl
  rw [hset]
  by_cases hb : st.hasSetup = false
  · rw [if_pos hb, if_pos hb]; exact rfl
  · rw [if_neg hb, if_neg hb, ren_initSolve S st v mer hd x0 k l l' hl]
    obtain ⟨i1, i2, i3, i4, i5⟩ := initSolve_hidden S st x0 k l
    have hout := ren_outer h ho hs S hG _ (initSolve S st x0 k l) v mer hd le_rfl (by rw [i2, i3]; exact hG.init) (by rw [i1]; exact hh)
      (.inl (by rw [i4, i5]; exact ⟨hi, ha⟩))
    generalize outerLoop (concreteCtx C) S (initSolve S st x0 k l) = r at hout ⊢
    generalize outerLoop (concreteCtx C') S _ = r' at hout ⊢
    rcases r with e | r <;> rcases r' with e' | r'
    · exact hout
    · exact hout.elim
    · exact hout.elim
    · obtain ⟨h2, hh2, rfl⟩ := hout
      refine ⟨h2, hh2, ?_⟩
      simp only [invokeCallbacks, Renaming.state, List.map_append, List.map_map]
      rfl

end ProxNLP
