import Verif.Lemmas.Casadi
import Verif.Props.LieGroup
import Mathlib.Tactic.FinCases
import Mathlib.Tactic.NormNum

/-! C116: functions written as CasADi expressions, and methods written in Python. -/

set_option linter.unusedSectionVars false

namespace ProxNLP

open Spec

variable {n r : ℕ}

theorem casObject_col (e : Fin r → Sx (UserSym n)) (he : ∀ i, OnlyInputs (e i)) (useHessian : Bool) :
    ∃ f : PyC2 ℝ n n r, casObject n n ⟨r, 1, fun i _ => e i⟩ useHessian = .ok ⟨r, f⟩ ∧
      (∀ x, f.eval x = .ok (List.ofFn (columnFunction e x))) ∧
      (∀ x mem, f.computeJacobian x mem = .ok fun i j => ((e i).diff (.input j)).eval (userEnv x)) ∧
      (∀ x v mem, f.vectorHessianProduct x v mem = .ok fun j k =>
        if useHessian then ∑ l, v l * (((e l).diff (.input j)).diff (.input k)).eval (userEnv x) else 0) := by
  obtain ⟨xp, hxp, hev, hd, hdd⟩ := casXplus_same (n := n) (nres := r)
  have hz : ∀ x : Fin n → ℝ, (fun i => x i + (0 : ℝ)) = x := fun x => by funext i; simp
  obtain ⟨g, hg, hgd⟩ := casLamJac_col (fun i => (e i).subst (casReplace xp))
  let hess : Option (List (Sx (WrapSym n n r))) := if useHessian then some (List.ofFn g) else none
  let F : CasFun n n := ⟨r, 1, fun i _ => (e i).subst (casReplace xp), hess⟩
  have hF : casInit n n ⟨r, 1, fun i _ => e i⟩ useHessian = .ok F := by
    unfold casInit
    simp only [if_true, hxp, casColumns_col]
    cases useHessian
    · simp only [Bool.false_eq_true, if_false, onlyInputs_check e he, if_true, F, hess]
    · simp only [if_true, hg, Except.map, onlyInputs_check e he, F, hess]
  refine ⟨F.toPy, by unfold casObject; rw [hF]; rfl, fun x => ?_, fun x mem => ?_, fun x v mem => ?_⟩
  · simp only [PyC2.eval, CasFun.toPy, CasFun.call, F, casRows_col]
    congr 1
    rw [List.map_ofFn]
    congr 1
    funext i
    simp only [Function.comp, Sx.eval_subst, hev, columnFunction, hz]
  · simp only [PyC2.computeJacobian, CasFun.toPy, CasFun.computeJacobian, F, casColumns_col]
    rw [dif_pos List.length_ofFn]
    congr 1
    funext i j
    simp only [casJacRow, List.get_eq_getElem, Fin.val_cast]
    rw [List.getElem_of_eq (casColumns_col fun i => (e i).subst (casReplace xp)), List.getElem_ofFn]
    have := Sx.eval_diff_subst (casReplace xp) (casEnv x (fun _ => 0) fun _ => 0) (.dx j) (.input j) (fun s => hd s j _) (e i)
    rw [this, hev, hz]
  · simp only [PyC2.vectorHessianProduct, CasFun.toPy, CasFun.vectorHessianProduct, F, hess]
    cases useHessian
    · simp
    · simp only [if_true]
      rw [dif_pos List.length_ofFn]
      congr 1
      funext j k
      simp only [List.get_eq_getElem, List.getElem_ofFn, Fin.val_cast, hgd]
      refine Finset.sum_congr rfl fun l _ => ?_
      rw [Sx.eval_diff_diff_subst (casReplace xp) _ (.dx j) (.dx k) (.input j) (.input k) (fun s => hd s j _) (fun s => hd s k _)
        (fun s => hdd s j k _), hev, hz]
      rfl

/-- **C116, derivatives**: on a vector space (`ndx = nx`) the object made from a column of `r` expressions in the symbols `cx` has `r`
outputs and computes at every point the values of the expressions; whatever the matrices contained before the call, `computeJacobian`
writes the derivative of that function and `vectorHessianProduct` the derivative of `Jᵀ v`, a symmetric matrix, at every point where the
expressions are defined. Missing: spaces that are not vector spaces (`C116_rotations_false`) and expressions that are not columns
(`C116_row_false`), which the constructor accepts too. -/
theorem C116_derivatives_partial (e : Fin r → Sx (UserSym n)) (he : ∀ i, OnlyInputs (e i)) :
    ∃ (f : PyC2 ℝ n n r) (J : (Fin n → ℝ) → Matrix (Fin r) (Fin n) ℝ) (H : (Fin n → ℝ) → (Fin r → ℝ) → Matrix (Fin n) (Fin n) ℝ),
      casObject n n ⟨r, 1, fun i _ => e i⟩ true = .ok ⟨r, f⟩ ∧
      (∀ x, f.eval x = .ok (List.ofFn (columnFunction e x))) ∧
      (∀ x mem, f.computeJacobian x mem = .ok (J x)) ∧ (∀ x v mem, f.vectorHessianProduct x v mem = .ok (H x v)) ∧
      ∀ x, (∀ i, Defined (userEnv x) (e i)) → HasJacobian (columnFunction e) (J x) x ∧
        ∀ v, HasJacobian (fun y => (J y).transpose.mulVec v) (H x v) x ∧ (H x v).IsSymm := by
  obtain ⟨f, hf, h1, h2, h3⟩ := casObject_col e he true
  refine ⟨f, fun x i j => ((e i).diff (.input j)).eval (userEnv x),
    fun x v j k => ∑ l, v l * (((e l).diff (.input j)).diff (.input k)).eval (userEnv x), hf, h1, h2, fun x v mem => by rw [h3]; rfl,
    fun x hx => ⟨columnFunction_jacobian e x hx, fun v => ⟨?_, ?_⟩⟩⟩
  · have hj := fun j => columnFunction_jacobian (fun l => (e l).diff (.input j)) x fun l => defined_diff _ _ _ (hx l)
    unfold HasJacobian
    rw [hasFDerivAt_pi']
    intro j
    have := ((rowForm v).hasFDerivAt (x := columnFunction (fun l => (e l).diff (.input j)) x)).comp x (hj j)
    refine (this.congr_of_eventuallyEq (Filter.Eventually.of_forall fun y => ?_)).congr_fderiv ?_
    · simp only [Matrix.mulVec, dotProduct, Function.comp, rowForm_apply, columnFunction]
      exact Finset.sum_congr rfl fun l _ => mul_comm _ _
    · refine ContinuousLinearMap.ext fun w => ?_
      refine (rowForm_apply v _).trans ?_
      show ∑ l, v l * ∑ k, (((e l).diff (.input j)).diff (.input k)).eval (userEnv x) * w k =
        ∑ k, (∑ l, v l * (((e l).diff (.input j)).diff (.input k)).eval (userEnv x)) * w k
      simp only [Finset.mul_sum, Finset.sum_mul]
      rw [Finset.sum_comm]
      exact Finset.sum_congr rfl fun k _ => Finset.sum_congr rfl fun l _ => by ring
  · refine Matrix.ext fun j k => ?_
    show ∑ l, v l * (((e l).diff (.input k)).diff (.input j)).eval (userEnv x) =
      ∑ l, v l * (((e l).diff (.input j)).diff (.input k)).eval (userEnv x)
    exact Finset.sum_congr rfl fun l _ => by rw [Sx.diff_comm]

/-- **C116, without Hessian**: with `use_hessian=False` the value and the Jacobian are the same and the vector-Hessian product is zero. -/
theorem C116_no_hessian (e : Fin r → Sx (UserSym n)) (he : ∀ i, OnlyInputs (e i)) :
    ∃ (f g : PyC2 ℝ n n r), casObject n n ⟨r, 1, fun i _ => e i⟩ false = .ok ⟨r, f⟩ ∧
      casObject n n ⟨r, 1, fun i _ => e i⟩ true = .ok ⟨r, g⟩ ∧ (∀ x, f.eval x = g.eval x) ∧
      (∀ x mem mem', f.computeJacobian x mem = g.computeJacobian x mem') ∧
      ∀ x v mem, f.vectorHessianProduct x v mem = .ok 0 := by
  obtain ⟨f, hf, h1, h2, h3⟩ := casObject_col e he false
  obtain ⟨g, hg, k1, k2, -⟩ := casObject_col e he true
  refine ⟨f, g, hf, hg, fun x => by rw [h1, k1], fun x mem mem' => by rw [h2, k2], fun x v mem => ?_⟩
  rw [h3]
  rfl

/-- **C116, refusal**: the constructor succeeds exactly when `cx` has `nx` entries, `dx` has as many entries as `cx` or only one, the
expression uses no other symbols, and, if the Hessian is requested, the expression is a column or a row. -/
theorem C116_accepts (nx ndx : ℕ) (e : CasExpr n) (useHessian : Bool) :
    (∃ o, casObject nx ndx e useHessian = .ok o) ↔
      nx = n ∧ (ndx = n ∨ ndx = 1) ∧ (∀ i j, OnlyInputs (e.entry i j)) ∧
      (useHessian = true → e.rows = 1 ∨ e.cols * e.rows = e.rows) := by
  have hlen : ∀ {α : Type} (g : Fin e.rows → Fin e.cols → α), (casColumns g).length = e.cols * e.rows := by
    intro α g
    simp [casColumns, List.length_flatMap]
  have hall : (casRows e.entry).all (fun a => a.symbols.all UserSym.isInput) = true ↔ ∀ i j, OnlyInputs (e.entry i j) := by
    simp only [casRows, List.all_eq_true, List.mem_flatMap, List.mem_map, List.mem_finRange, true_and, OnlyInputs]
    constructor
    · intro h i j s hs
      have := h _ ⟨i, j, rfl⟩ s hs
      cases s with
      | input k => exact ⟨k, rfl⟩
      | other k => cases this
    · rintro h a ⟨i, j, rfl⟩ s hs
      obtain ⟨k, rfl⟩ := h i j s hs
      rfl
  have hx : (∃ xp, casXplus n ndx e.rows = .ok xp) ↔ (ndx = n ∨ ndx = 1) := by
    unfold casXplus
    by_cases h1 : ndx = n
    · simp [h1]
    · by_cases h2 : ndx = 1
      · subst h2; simp [h1]
      · simp [h1, h2]
  have hl : ∀ es : List (Sx (WrapSym n ndx e.rows)), (∃ l, casLamJac es = .ok l) ↔ (e.rows = 1 ∨ es.length = e.rows) := by
    intro es
    unfold casLamJac
    by_cases h1 : e.rows = 1
    · simp [h1]
    · by_cases h2 : es.length = e.rows
      · simp [h1, h2]
      · simp [h1, h2]
  have hm : (∃ o, casObject nx ndx e useHessian = .ok o) ↔ ∃ f, casInit nx ndx e useHessian = .ok f := by
    unfold casObject
    cases casInit nx ndx e useHessian <;> simp [Except.map]
  rw [hm, ← hx, ← hall]
  unfold casInit
  by_cases hn : nx = n
  · rw [if_pos hn]
    cases hxp : casXplus n ndx e.rows with
    | error err => simp
    | ok xp =>
      cases useHessian
      · by_cases hs : (casRows e.entry).all (fun a => a.symbols.all UserSym.isInput) = true
        · simp only [hn, hs]; simp
        · simp only [hn, hs]; simp
      · have h2 := hl (casColumns fun i j => (e.entry i j).subst (casReplace xp))
        rw [hlen] at h2
        by_cases hs : (casRows e.entry).all (fun a => a.symbols.all UserSym.isInput) = true
        · cases hc : casLamJac (casColumns fun i j => (e.entry i j).subst (casReplace xp)) with
          | error err =>
            rw [hc] at h2
            simp only [hn, hs, hc, if_true, Except.map]
            simpa using h2
          | ok l =>
            rw [hc] at h2
            simp only [hn, hs, hc, if_true, Except.map]
            simpa using h2
        · cases hc : casLamJac (casColumns fun i j => (e.entry i j).subst (casReplace xp)) with
          | error err => simp only [hn, hs, hc, if_true, Except.map]; simp
          | ok l => simp only [hn, hs, hc, if_true, Except.map]; simp
  · simp [hn]

/-- **C116, one tangent dimension**: with `ndx = 1` and `nx` different from 1 the single increment is added to every coordinate: the
reported column is the derivative along the direction `(1, ..., 1)`, whatever the space is. -/
theorem C116_single_increment (hn : n ≠ 1) (e : Fin r → Sx (UserSym n)) (he : ∀ i, OnlyInputs (e i)) (useHessian : Bool) :
    ∃ (f : PyC2 ℝ n 1 r) (J : (Fin n → ℝ) → Matrix (Fin r) (Fin 1) ℝ), casObject n 1 ⟨r, 1, fun i _ => e i⟩ useHessian = .ok ⟨r, f⟩ ∧
      (∀ x mem, f.computeJacobian x mem = .ok (J x)) ∧
      ∀ x, (∀ i, Defined (userEnv x) (e i)) → HasTangentJacobian (fun x d i => x i + d 0) (columnFunction e) (J x) x := by
  obtain ⟨xp, hxp, hev, hdef⟩ := casXplus_one (n := n) (nres := r) hn
  obtain ⟨g, hg, -⟩ := casLamJac_col (fun i => (e i).subst (casReplace xp))
  let hess : Option (List (Sx (WrapSym n 1 r))) := if useHessian then some (List.ofFn g) else none
  let F : CasFun n 1 := ⟨r, 1, fun i _ => (e i).subst (casReplace xp), hess⟩
  have hF : casInit n 1 ⟨r, 1, fun i _ => e i⟩ useHessian = .ok F := by
    unfold casInit
    simp only [if_true, hxp, casColumns_col]
    cases useHessian
    · simp only [Bool.false_eq_true, if_false, onlyInputs_check e he, if_true, F, hess]
    · simp only [if_true, hg, Except.map, onlyInputs_check e he, F, hess]
  refine ⟨F.toPy, fun x i j => (((e i).subst (casReplace xp)).diff (.dx j)).eval (casEnv x (fun _ => 0) fun _ => 0),
    by unfold casObject; rw [hF]; rfl, fun x mem => ?_, fun x hx => ?_⟩
  · simp only [PyC2.computeJacobian, CasFun.toPy, CasFun.computeJacobian, F, casColumns_col]
    rw [dif_pos List.length_ofFn]
    congr 1
    funext i j
    simp only [casJacRow, List.get_eq_getElem, Fin.val_cast]
    rw [List.getElem_of_eq (casColumns_col fun i => (e i).subst (casReplace xp)), List.getElem_ofFn]
  · unfold HasTangentJacobian HasJacobian
    rw [hasFDerivAt_pi']
    intro i
    have := Sx.hasFDerivAt (fun j => WrapSym.dx j) (fun d => casEnv x d fun _ : Fin r => (0 : ℝ)) (fun d s => ?_)
      ((e i).subst (casReplace xp)) 0 (defined_subst _ _ (fun s => hdef s _) _ ?_)
    · refine (this.congr_of_eventuallyEq (Filter.Eventually.of_forall fun d => ?_)).congr_fderiv ?_
      · show columnFunction e (fun i => x i + d 0) i = _
        simp only [Sx.eval_subst, hev]
        rfl
      · refine ContinuousLinearMap.ext fun w => ?_
        exact rowForm_apply _ w
    · cases s with
      | cx i => exact formDeriv (hasFDerivAt_const (x i) d) fun v => by simp
      | dx j => exact formDeriv (hasFDerivAt_apply j d) fun v => by simp [Subsingleton.elim j 0]
      | lam k => exact formDeriv (hasFDerivAt_const 0 d) fun v => by simp
      | other k => exact formDeriv (hasFDerivAt_const 0 d) fun v => by simp
    · have h0 : (fun i => x i + (0 : Fin 1 → ℝ) 0) = x := by funext i; simp
      rw [hev, h0]
      exact hx i

/-- **C116 is false on the rotations of the plane** (`nx = 2`, `ndx = 1`): the constructor accepts the first coordinate as a function on
that space, and the Jacobian reported at the point `(1, 0)` is not the derivative along rotations: it is 1 instead of 0. -/
theorem C116_rotations_false :
    ∃ (e : Fin 1 → Sx (UserSym 2)) (f : PyC2 ℝ 2 1 1) (J : Matrix (Fin 1) (Fin 1) ℝ),
      (∀ i, OnlyInputs (e i)) ∧ (∀ i x, Defined (userEnv x) (e i)) ∧
      casObject Demo.so2.nq Demo.so2.nv ⟨1, 1, fun i _ => e i⟩ true = .ok ⟨1, f⟩ ∧ (∀ mem, f.computeJacobian ![1, 0] mem = .ok J) ∧
      ¬ HasTangentJacobian (fun x d => ![x 0 * Real.cos (d 0) - x 1 * Real.sin (d 0), x 1 * Real.cos (d 0) + x 0 * Real.sin (d 0)])
        (columnFunction e) J ![1, 0] := by
  have he : ∀ i : Fin 1, OnlyInputs ((fun _ => .sym (.input 0) : Fin 1 → Sx (UserSym 2)) i) := by
    intro i s hs
    simp only [Sx.symbols, List.mem_singleton] at hs
    exact ⟨0, hs⟩
  have hd : ∀ (i : Fin 1) (x : Fin 2 → ℝ), Defined (userEnv x) ((fun _ => .sym (.input 0) : Fin 1 → Sx (UserSym 2)) i) := fun _ _ => trivial
  obtain ⟨f, J, hf, hJ, hjac⟩ := C116_single_increment (n := 2) (by decide) _ he true
  refine ⟨_, f, J ![1, 0], he, hd, hf, hJ _, fun h => ?_⟩
  have h1 := hasFDerivAt_pi'.mp (hjac ![1, 0] fun i => hd i _) 0
  have h2 := hasFDerivAt_pi'.mp h 0
  have k1 : HasFDerivAt (fun d : Fin 1 → ℝ => (1 : ℝ) + d 0) (rowForm fun _ => (1 : ℝ)) 0 :=
    formDeriv ((hasFDerivAt_apply (𝕜 := ℝ) (F' := fun _ : Fin 1 => ℝ) 0 0).const_add 1) fun v => by simp
  have k2 : HasFDerivAt (fun d : Fin 1 → ℝ => (1 : ℝ) * Real.cos (d 0) - 0 * Real.sin (d 0)) (rowForm fun _ => (0 : ℝ)) 0 := by
    have := ((hasFDerivAt_apply (𝕜 := ℝ) (F' := fun _ : Fin 1 => ℝ) 0 0).cos.const_mul 1).sub
      ((hasFDerivAt_apply (𝕜 := ℝ) (F' := fun _ : Fin 1 => ℝ) 0 0).sin.const_mul 0)
    exact formDeriv this fun v => by simp
  have u1 := h1.unique k1
  have u2 := h2.unique k2
  have := congrArg (fun L : (Fin 1 → ℝ) →L[ℝ] ℝ => L fun _ => 1) (u1.symm.trans u2)
  simp [rowForm_apply] at this

/-- **C116 is false for rows**: a row of two expressions is accepted, with and without Hessian, as a function with one output, and then
returns two values and raises an exception when its Jacobian is asked for. -/
theorem C116_row_false (useHessian : Bool) :
    ∃ (e : CasExpr 2) (f : PyC2 ℝ 2 2 1), casObject 2 2 e useHessian = .ok ⟨1, f⟩ ∧ (∀ x, f.eval x = .ok [x 0, x 1]) ∧
      ∀ x mem, f.computeJacobian x mem = .error .shape := by
  obtain ⟨xp, hxp, hev, -, -⟩ := casXplus_same (n := 2) (nres := 1)
  have hacc := (C116_accepts 2 2 ⟨1, 2, fun _ j => .sym (.input j)⟩ useHessian).mpr
    ⟨rfl, Or.inl rfl, fun i j s hs => ⟨j, by simpa [Sx.symbols] using hs⟩, fun _ => Or.inl rfl⟩
  obtain ⟨o, ho⟩ := hacc
  have hI : ∃ hess, casInit 2 2 ⟨1, 2, fun _ j => .sym (.input j)⟩ useHessian =
      .ok ⟨1, 2, fun _ j => (Sx.sym (.input j)).subst (casReplace xp), hess⟩ := by
    unfold casObject at ho
    unfold casInit at ho ⊢
    simp only [if_true, hxp] at ho ⊢
    split at ho
    · cases ho
    · rename_i hess heq
      refine ⟨hess, ?_⟩
      split at ho
      · rename_i hs
        simp only [hs, if_true]
      · cases ho
  obtain ⟨hess, hI⟩ := hI
  refine ⟨⟨1, 2, fun _ j => .sym (.input j)⟩, CasFun.toPy ⟨1, 2, fun _ j => (Sx.sym (.input j)).subst (casReplace xp), hess⟩,
    by unfold casObject; rw [hI]; rfl, fun x => ?_, fun x mem => ?_⟩
  · simp only [PyC2.eval, CasFun.toPy, CasFun.call]
    have hz : ∀ j, (casReplace xp (.input j)).eval (casEnv x (fun _ => 0) fun _ => 0) = x j := fun j => by
      have := congrFun (hev x (fun _ => 0) fun _ => 0) (.input j)
      simpa [userEnv] using this
    simp [casRows, Sx.subst, List.finRange_succ, hz]
  · simp only [PyC2.computeJacobian, CasFun.toPy, CasFun.computeJacobian]
    rw [dif_neg (by simp [casColumns, List.length_flatMap])]

/-! ### Methods written in Python -/

/-- **C116, missing methods**: a function class written in Python that does not define the value or the Jacobian raises an exception
when C++ asks for it; one that does not define the vector-Hessian product reports zero. `getJacobian` and `getVHP` return what the
method returns. -/
theorem C116_missing_methods {K : Type} [Zero K] {nx ndx nr : ℕ} (f : PyC2 K nx ndx nr) :
    (f.call = none → ∀ x, f.eval x = .error .noMethod) ∧
    (f.jac = none → ∀ x mem, f.getJacobian mem x = .error .noMethod) ∧
    (f.vhp = none → ∀ x v mem, f.getVHP mem x v = .ok 0) ∧
    (∀ m, f.jac = some m → ∀ x mem, f.getJacobian mem x = m x mem) ∧
    ∀ m, f.vhp = some m → ∀ x v mem, f.getVHP mem x v = m x v mem := by
  refine ⟨fun h x => ?_, fun h x mem => ?_, fun h x v mem => ?_, fun m h x mem => ?_, fun m h x v mem => ?_⟩ <;>
    simp only [PyC2.eval, PyC2.getJacobian, PyC2.computeJacobian, PyC2.getVHP, PyC2.vectorHessianProduct, h]
  rfl

namespace Demo

/-- `x0 * sin(x1) / (1 + x0^2)` and `log(x0)` -/
def casPair : Fin 2 → Sx (UserSym 2) :=
  ![.div (.mul (.sym (.input 0)) (.sin (.sym (.input 1)))) (.add (.const 1) (.sq (.sym (.input 0)))), .log (.sym (.input 0))]

end Demo

/-- C116 is not vacuous: two expressions with a quotient, a sine and a logarithm, at a point where they are defined. -/
example : (∀ i, OnlyInputs (Demo.casPair i)) ∧ ∀ i, Defined (userEnv ![2, 3]) (Demo.casPair i) := by
  constructor
  · intro i s hs
    fin_cases i <;> simp [Demo.casPair, Sx.symbols] at hs
    · rcases hs with h | h | h <;> exact ⟨_, h⟩
    · exact ⟨_, hs⟩
  · intro i
    fin_cases i <;> simp [Demo.casPair, Defined, Sx.eval, userEnv]
    norm_num

/-- the derivative of `x0 * x1` at `(2, 3)` is `(3, 2)`, its Hessian times 5 is `[[0, 5], [5, 0]]` -/
example : ∃ f : PyC2 ℝ 2 2 1, casObject 2 2 ⟨1, 1, fun _ _ => .mul (.sym (.input 0)) (.sym (.input 1))⟩ true = .ok ⟨1, f⟩ ∧
    f.eval ![2, 3] = .ok [6] ∧ (∀ mem, f.getJacobian mem ![2, 3] = .ok (Matrix.of ![![3, 2]])) ∧
    ∀ mem, f.getVHP mem ![2, 3] (fun _ => 5) = .ok (Matrix.of ![![0, 5], ![5, 0]]) := by
  obtain ⟨f, hf, h1, h2, h3⟩ := casObject_col (n := 2) (r := 1) (fun _ => .mul (.sym (.input 0)) (.sym (.input 1)))
    (fun i s hs => by simp [Sx.symbols] at hs; rcases hs with h | h <;> exact ⟨_, h⟩) true
  refine ⟨f, hf, ?_, fun mem => ?_, fun mem => ?_⟩
  · rw [h1]; norm_num [columnFunction, Sx.eval, userEnv]
  · rw [PyC2.getJacobian, h2]
    congr 1
    ext i j
    fin_cases i; fin_cases j <;> simp [Sx.eval, Sx.diff, userEnv]
  · rw [PyC2.getVHP, h3]
    congr 1
    ext i j
    fin_cases i <;> fin_cases j <;> simp [Sx.eval, Sx.diff, userEnv]

end ProxNLP
