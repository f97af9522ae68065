import Verif.Spec.Casadi
import Mathlib.Analysis.SpecialFunctions.Trigonometric.Deriv
import Mathlib.Analysis.SpecialFunctions.Log.Deriv
import Mathlib.Analysis.SpecialFunctions.ExpDeriv
import Mathlib.Analysis.SpecialFunctions.Sqrt
import Mathlib.Analysis.Calculus.Deriv.Mul
import Mathlib.Analysis.Calculus.Deriv.Inv
import Mathlib.Analysis.Calculus.FDeriv.Pi
import Mathlib.Tactic.FunProp
import Mathlib.Tactic.Ring
import Mathlib.Tactic.FieldSimp
import Mathlib.Algebra.BigOperators.Fin

/-! Facts about CasADi expressions and the wrapper. -/

namespace ProxNLP

open Spec

variable {S T : Type}

theorem Sx.eval_subst (f : S → Sx T) (env : T → ℝ) (e : Sx S) : (e.subst f).eval env = e.eval fun s => (f s).eval env := by
  induction e <;> simp_all [Sx.subst, Sx.eval]

theorem defined_subst (f : S → Sx T) (env : T → ℝ) (hf : ∀ s, Defined env (f s)) (e : Sx S) (h : Defined (fun s => (f s).eval env) e) :
    Defined env (e.subst f) := by
  induction e <;> simp_all [Sx.subst, Defined, Sx.eval_subst]

theorem defined_diff [DecidableEq S] (x : S) (env : S → ℝ) (e : Sx S) (h : Defined env e) : Defined env (e.diff x) := by
  induction e <;> simp_all [Sx.diff, Defined, Sx.eval]
  case sqrt a ih => exact (Real.sqrt_pos.mpr h.2).ne'
  case log a ih => exact h.2.ne'

theorem Sx.eval_diff_subst [DecidableEq S] [DecidableEq T] (f : S → Sx T) (env : T → ℝ) (x : T) (y : S)
    (hf : ∀ s, ((f s).diff x).eval env = if s = y then 1 else 0) (e : Sx S) :
    ((e.subst f).diff x).eval env = (e.diff y).eval fun s => (f s).eval env := by
  induction e <;> simp_all [Sx.subst, Sx.diff, Sx.eval, Sx.eval_subst]

theorem Sx.eval_diff_diff_subst [DecidableEq S] [DecidableEq T] (f : S → Sx T) (env : T → ℝ) (x x' : T) (y y' : S)
    (hf : ∀ s, ((f s).diff x).eval env = if s = y then 1 else 0) (hf' : ∀ s, ((f s).diff x').eval env = if s = y' then 1 else 0)
    (hff : ∀ s, (((f s).diff x).diff x').eval env = 0) (e : Sx S) :
    (((e.subst f).diff x).diff x').eval env = ((e.diff y).diff y').eval fun s => (f s).eval env := by
  have h1 := Sx.eval_diff_subst f env x y hf
  have h2 := Sx.eval_diff_subst f env x' y' hf'
  induction e <;> simp_all [Sx.subst, Sx.diff, Sx.eval, Sx.eval_subst]

/-- mixed derivatives agree -/
theorem Sx.diff_comm [DecidableEq S] (x y : S) (env : S → ℝ) (e : Sx S) : ((e.diff x).diff y).eval env = ((e.diff y).diff x).eval env := by
  induction e <;> simp only [Sx.diff, Sx.eval] at *
  case add a b ha hb => rw [ha, hb]
  case sub a b ha hb => rw [ha, hb]
  case mul a b ha hb => rw [ha, hb]; ring
  case div a b ha hb => rw [ha, hb]; ring
  case neg a ha => rw [ha]
  case sq a ha => rw [ha]; ring
  case sqrt a ha => rw [ha]; ring
  case exp a ha => rw [ha]; ring
  case log a ha => rw [ha]; ring
  case sin a ha => rw [ha]; ring
  case cos a ha => rw [ha]; ring

/-- the linear form with coefficients `g` -/
noncomputable def rowForm {n : ℕ} (g : Fin n → ℝ) : (Fin n → ℝ) →L[ℝ] ℝ :=
  ∑ j, g j • ContinuousLinearMap.proj (R := ℝ) (φ := fun _ : Fin n => ℝ) j

theorem rowForm_apply {n : ℕ} (g v : Fin n → ℝ) : rowForm g v = ∑ j, g j * v j := by
  simp [rowForm]

theorem rowForm_eq {n : ℕ} {L : (Fin n → ℝ) →L[ℝ] ℝ} {g : Fin n → ℝ} (h : ∀ v, L v = ∑ j, g j * v j) : L = rowForm g := by
  ext v; rw [h, rowForm_apply]

theorem formDeriv {n : ℕ} {f : (Fin n → ℝ) → ℝ} {L : (Fin n → ℝ) →L[ℝ] ℝ} {g d : Fin n → ℝ} (h : HasFDerivAt f L d)
    (hL : ∀ v, L v = ∑ j, g j * v j) : HasFDerivAt f (rowForm g) d := rowForm_eq hL ▸ h

/-- Symbolic differentiation is differentiation. -/
theorem Sx.hasFDerivAt [DecidableEq S] {n : ℕ} (var : Fin n → S) (env : (Fin n → ℝ) → S → ℝ)
    (henv : ∀ d s, HasFDerivAt (fun d => env d s) (rowForm fun j => if s = var j then 1 else 0) d)
    (e : Sx S) (d : Fin n → ℝ) (h : Defined (env d) e) :
    HasFDerivAt (fun d => e.eval (env d)) (rowForm fun j => (e.diff (var j)).eval (env d)) d := by
  induction e with
  | const a =>
    simp only [Sx.eval, Sx.diff]
    exact formDeriv (hasFDerivAt_const a d) fun v => by simp
  | sym s => simpa [Sx.eval, Sx.diff] using henv d s
  | add a b ha hb =>
    refine formDeriv ((ha h.1).add (hb h.2)) fun v => ?_
    simp [rowForm_apply, Sx.eval, Sx.diff, add_mul, Finset.sum_add_distrib]
  | sub a b ha hb =>
    refine formDeriv ((ha h.1).sub (hb h.2)) fun v => ?_
    simp [rowForm_apply, Sx.eval, Sx.diff, sub_mul, Finset.sum_sub_distrib]
  | mul a b ha hb =>
    refine formDeriv ((ha h.1).mul (hb h.2)) fun v => ?_
    simp only [rowForm_apply, Sx.eval, Sx.diff, add_apply, smul_apply, smul_eq_mul,
      Finset.mul_sum, ← Finset.sum_add_distrib]
    exact Finset.sum_congr rfl fun j _ => by ring
  | div a b ha hb =>
    have hd := (ha h.1).mul ((hasDerivAt_inv h.2.2).comp_hasFDerivAt d (hb h.2.1))
    simp only [Sx.eval, div_eq_mul_inv]
    refine formDeriv (hd) fun v => ?_
    simp only [rowForm_apply, Sx.eval, Sx.diff, add_apply, smul_apply, smul_eq_mul,
      Finset.mul_sum, ← Finset.sum_add_distrib, Function.comp]
    exact Finset.sum_congr rfl fun j _ => by ring
  | neg a ha =>
    refine formDeriv ((ha h).neg) fun v => ?_
    simp [rowForm_apply, Sx.eval, Sx.diff]
  | sq a ha =>
    refine formDeriv ((ha h).mul (ha h)) fun v => ?_
    simp only [rowForm_apply, Sx.eval, Sx.diff, add_apply, smul_apply, smul_eq_mul,
      Finset.mul_sum, ← Finset.sum_add_distrib]
    exact Finset.sum_congr rfl fun j _ => by ring
  | sqrt a ha =>
    refine formDeriv ((ha h.1).sqrt h.2.ne') fun v => ?_
    simp only [rowForm_apply, Sx.eval, Sx.diff, smul_apply, smul_eq_mul, Finset.mul_sum]
    exact Finset.sum_congr rfl fun j _ => by ring
  | exp a ha =>
    refine formDeriv ((ha h).exp) fun v => ?_
    simp only [rowForm_apply, Sx.eval, Sx.diff, smul_apply, smul_eq_mul, Finset.mul_sum]
    exact Finset.sum_congr rfl fun j _ => by ring
  | log a ha =>
    refine formDeriv ((ha h.1).log h.2.ne') fun v => ?_
    simp only [rowForm_apply, Sx.eval, Sx.diff, smul_apply, smul_eq_mul, Finset.mul_sum]
    exact Finset.sum_congr rfl fun j _ => by ring
  | sin a ha =>
    refine formDeriv ((ha h).sin) fun v => ?_
    simp only [rowForm_apply, Sx.eval, Sx.diff, smul_apply, smul_eq_mul, Finset.mul_sum]
    exact Finset.sum_congr rfl fun j _ => by ring
  | cos a ha =>
    refine formDeriv ((ha h).cos) fun v => ?_
    simp only [rowForm_apply, Sx.eval, Sx.diff, smul_apply, smul_eq_mul, Finset.mul_sum]
    exact Finset.sum_congr rfl fun j _ => by ring

/-! ### The wrapper -/

theorem flatMap_single {α β : Type} (l : List α) (f : α → β) : l.flatMap (fun a => [f a]) = l.map f := by
  induction l with
  | nil => rfl
  | cons a l ih => simp [ih]

theorem casRows_col {α : Type} {r : ℕ} (f : Fin r → α) : casRows (fun i (_ : Fin 1) => f i) = List.ofFn f := by
  simp [casRows, List.ofFn_eq_map, flatMap_single]

theorem casColumns_col {α : Type} {r : ℕ} (f : Fin r → α) : casColumns (fun i (_ : Fin 1) => f i) = List.ofFn f := by
  simp [casColumns, List.ofFn_eq_map, show List.finRange 1 = [0] from rfl]

variable {n ndx nres : ℕ}

theorem casSum_eval {α : Type} (l : List α) (g : α → Sx S) (env : S → ℝ) :
    (casSum (l.map g)).eval env = (l.map fun a => (g a).eval env).sum := by
  induction l with
  | nil => rfl
  | cons a l ih => simp [casSum, Sx.eval, ih]

theorem casSum_diff [DecidableEq S] {α : Type} (l : List α) (g : α → Sx S) (x : S) (env : S → ℝ) :
    ((casSum (l.map g)).diff x).eval env = (l.map fun a => ((g a).diff x).eval env).sum := by
  induction l with
  | nil => rfl
  | cons a l ih => simp [casSum, Sx.diff, Sx.eval, ih]

/-- The product `clam.T @ Jexpr` for a column of expressions, and its derivatives. -/
theorem casLamJac_col (es : Fin nres → Sx (WrapSym n ndx nres)) :
    ∃ g : Fin ndx → Sx (WrapSym n ndx nres), casLamJac (List.ofFn es) = .ok (List.ofFn g) ∧
      ∀ env j k, ((g j).diff (.dx k)).eval env = ∑ l, env (.lam l) * (((es l).diff (.dx j)).diff (.dx k)).eval env := by
  unfold casLamJac
  by_cases h : nres = 1
  · subst h
    rw [dif_pos rfl]
    refine ⟨fun j => .mul (.sym (.lam 0)) (casJacRow (es 0) j), ?_, fun env j k => ?_⟩
    · congr 1
      simp [List.ofFn_eq_map, flatMap_single]
    · simp [Sx.diff, Sx.eval, casJacRow]
  · rw [dif_neg h, dif_pos (List.length_ofFn)]
    refine ⟨fun j => casSum ((List.finRange nres).map fun k => .mul (.sym (.lam k)) (casJacRow (es k) j)), ?_, fun env j k => ?_⟩
    · congr 1
      simp [List.ofFn_eq_map]
    · rw [casSum_diff, ← List.ofFn_eq_map, List.sum_ofFn]
      exact Finset.sum_congr rfl fun l _ => by simp [Sx.diff, Sx.eval, casJacRow]

theorem casXplus_same : ∃ xp : Fin n → Sx (WrapSym n n nres), casXplus n n nres = .ok xp ∧
    (∀ x d lam, (fun s => (casReplace xp s).eval (casEnv x d lam)) = userEnv (fun i => x i + d i)) ∧
    (∀ s j env, ((casReplace xp s).diff (.dx j)).eval env = if s = .input j then 1 else 0) ∧
    (∀ s j k env, (((casReplace xp s).diff (.dx j)).diff (.dx k)).eval env = 0) := by
  refine ⟨fun i => .add (.sym (.cx i)) (.sym (.dx i)), by simp [casXplus], fun x d lam => ?_, fun s j env => ?_, fun s j k env => ?_⟩
  · funext s; cases s <;> simp [casReplace, Sx.eval, casEnv, userEnv]
  · cases s <;> simp [casReplace, Sx.diff, Sx.eval]
  · cases s <;> simp [casReplace, Sx.diff, Sx.eval]

theorem casXplus_one (hn : n ≠ 1) : ∃ xp : Fin n → Sx (WrapSym n 1 nres), casXplus n 1 nres = .ok xp ∧
    (∀ x d lam, (fun s => (casReplace xp s).eval (casEnv x d lam)) = userEnv (fun i => x i + d 0)) ∧
    ∀ s env, Defined env (casReplace xp s) := by
  refine ⟨fun i => .add (.sym (.cx i)) (.sym (.dx 0)), by simp [casXplus, Ne.symm hn], fun x d lam => ?_, fun s env => ?_⟩
  · funext s; cases s <;> simp [casReplace, Sx.eval, casEnv, userEnv]
  · cases s <;> simp [casReplace, Defined]

theorem onlyInputs_check {r : ℕ} (e : Fin r → Sx (UserSym n)) (h : ∀ i, OnlyInputs (e i)) :
    (casRows (fun i (_ : Fin 1) => e i)).all (fun a => a.symbols.all UserSym.isInput) = true := by
  rw [casRows_col]
  simp only [List.all_eq_true, List.mem_ofFn, forall_exists_index]
  rintro a i rfl s hs
  obtain ⟨j, rfl⟩ := h i s hs
  rfl

/-- derivative of the function that a column of expressions stands for -/
theorem columnFunction_jacobian {r : ℕ} (e : Fin r → Sx (UserSym n)) (x : Fin n → ℝ) (h : ∀ i, Defined (userEnv x) (e i)) :
    HasJacobian (columnFunction e) (fun i j => ((e i).diff (.input j)).eval (userEnv x)) x := by
  unfold HasJacobian
  rw [hasFDerivAt_pi']
  intro i
  have := Sx.hasFDerivAt (fun j => UserSym.input j) userEnv (fun d s => ?_) (e i) x (h i)
  · refine this.congr_fderiv ?_
    ext v
    rw [rowForm_apply]
    rfl
  · cases s with
    | input i => exact formDeriv (hasFDerivAt_apply i d) fun v => by simp
    | other k => exact formDeriv (hasFDerivAt_const 0 d) fun v => by simp

end ProxNLP
