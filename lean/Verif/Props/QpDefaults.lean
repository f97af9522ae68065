import Verif.Props.Qp
import Mathlib.Analysis.SpecialFunctions.Pow.Real

/-! C80 for the default settings of the solver, with real numbers and the real power function in the place of `std::pow`. -/

set_option linter.unusedSectionVars false
namespace ProxNLP

open Spec

variable {n m : ℕ}

/-- The defaults (prox-solver.hpp:87-101, 134-139, bcl-params.hpp:9-20); the tolerance and the budgets are the user's. -/
noncomputable def Spec.defaultSettings (tol : ℝ) (kkt : KktSys) (maxIters maxAl : ℕ) : Settings ℝ :=
  { targetTol := tol, muInit := 1 / 100, rhoInit := 0, muLower := 1 / 1000000000, muUpper := 1, innerTol0 := 1,
    primTol0 := 1, innerTolMin := 1 / 1000000000, pdalBeta := 1 / 2, primAlpha := 1 / 10, primBeta := 9 / 10,
    dualAlpha := 1, dualBeta := 1, muUpdateFactor := 1 / 100, rhoUpdateFactor := 1, maxIters := maxIters,
    maxAlIters := maxAl, mode := .newton, kkt := kkt, pow := fun x e => x ^ e }

/-- the line search defaults (linesearch-base.hpp:18-22) -/
noncomputable def Spec.defaultLinesearch : LSOptions ℝ :=
  { armijoC1 := 1 / 10000, dphiThresh := 1 / 10000000000000, alphaMin := 1 / 1000000, maxNumSteps := 20, interp := .cubic,
    contractionMin := 1 / 2, contractionMax := 4 / 5 }

/-- the regularisation defaults (prox-solver.hpp:116-122) -/
noncomputable def Spec.defaultInertia : InertiaParams ℝ :=
  { deltaInit := 0, deltaNonzeroInit := 1 / 10000, deltaMin := 1 / 100000000000000, deltaMax := 1000000,
    decK := 1 / 3, incK := 8, incBig := 100 }

/-- **C80, defaults**: the default settings meet the hypotheses of `C80_converges` for every tolerance above `inner_tol_min = 1e-9` and
initial multipliers within `5e7` of the optimal ones. -/
theorem C80_defaults (tol : ℝ) (htol : 1 / 1000000000 < tol) (kkt : KktSys) (a b : ℕ) :
    ConvergentSettings (defaultSettings tol kkt a b) 100000000 where
  newton := rfl
  beta := rfl
  rho := rfl
  target := htol
  tolMin := by norm_num [defaultSettings]
  lower := by norm_num [defaultSettings]
  lower_le := by norm_num [defaultSettings]
  factor_nonneg := by norm_num [defaultSettings]
  factor_lt := by norm_num [defaultSettings]
  start := ⟨1, fun mu h1 h2 => by
    simp only [defaultSettings] at h1 h2 ⊢
    have h0 : 0 < mu := lt_of_lt_of_le (by norm_num) h1
    rw [one_mul, one_mul]
    refine ⟨(Real.rpow_pos_of_pos h0 _).le, Real.rpow_lt_rpow_of_exponent_gt h0 (by linarith) (by norm_num), ?_⟩
    rw [Real.rpow_one]; linarith⟩
  shrink := ⟨1 / 2, by norm_num, fun mu h1 h2 => by
    simp only [defaultSettings] at h1 h2 ⊢
    have h0 : 0 < mu := lt_of_lt_of_le (by norm_num) h1
    rw [div_one]
    refine ⟨(Real.rpow_pos_of_pos h0 _).le, ?_, Real.rpow_le_rpow_of_exponent_ge h0 (by linarith) (by norm_num),
      Real.rpow_pos_of_pos h0 _⟩
    rw [Real.rpow_one]; linarith⟩
  room := by
    simp only [defaultSettings]
    rw [one_mul, one_mul, Real.rpow_one, max_self]
    have h : (11 / 100 : ℝ) < (1 / 1000000000) ^ (1 / 10 : ℝ) := by
      have e : (11 / 100 : ℝ) = ((11 / 100 : ℝ) ^ (10 : ℕ)) ^ (1 / 10 : ℝ) := by
        rw [← Real.rpow_natCast, ← Real.rpow_mul (by norm_num)]
        norm_num
      rw [e]
      exact Real.rpow_lt_rpow (by positivity) (by norm_num) (by norm_num)
    refine lt_trans ?_ h
    norm_num

/-- **C80, convergence with the defaults**: with the default settings and any linear solver of the library, a strictly convex program
with independent equality constraints is solved to any tolerance above 1e-9 from every start `x0` and every initial
multipliers within `5e7` of the optimal ones, given large enough iteration budgets. -/
theorem C80_defaults_converge (q : Qp ℝ n m) (h : ℝ) (hc : q.StronglyConvex h) (B : Fin n → Fin m → ℝ) (hB : q.Independent B)
    (xs : Fin n → ℝ) (ls : Fin m → ℝ) (hopt : q.Optimal xs ls) (tol : ℝ) (htol : 1 / 1000000000 < tol) (kkt : KktSys) :
    ∃ N : ℕ, ∀ C : StepCfg (Fin n → ℝ) ℝ n m, IsQp C q → C.inertia = defaultInertia → C.ls = defaultLinesearch → N ≤ C.fuel →
      LibraryBackend C.backend → ∀ maxIters maxAlIters : ℕ, N ≤ maxIters → N ≤ maxAlIters →
      ∀ (st : St (Fin n → ℝ) ℝ (Hidden ℝ n m) m) (x0 : Fin n → ℝ) (lams0 : Fin m → ℝ), st.hasSetup = true →
        ∑ i, (lams0 i - ls i) ^ 2 ≤ 50000000 ^ 2 →
        ∃ st', solve (concreteCtx C) (defaultSettings tol kkt maxIters maxAlIters) st x0 m lams0 = .ok st' ∧
          q.Approx tol st'.xOpt st'.lamsOpt ∧
          (st'.converged = .success ∨ (∃ i, |q.residual st'.xOpt i| = tol) ∨
            ∃ j, |q.lagrangian st'.xOpt st'.lamsOpt j| = tol) := by
  obtain ⟨N, hN⟩ := C80_converges q h hc B hB xs ls hopt (defaultSettings tol kkt 0 0) 100000000 (by norm_num)
    (C80_defaults tol htol kkt 0 0) defaultInertia (by constructor <;> norm_num [defaultInertia]) rfl
    (by norm_num [defaultInertia]) defaultLinesearch (by constructor <;> norm_num [defaultLinesearch])
    (by norm_num [defaultLinesearch])
  refine ⟨N, fun C hq h1 h2 h3 h4 a b ha hb st x0 lams0 hset hd => ?_⟩
  exact hN C hq h1 h2 h3 h4 a b ha hb st x0 lams0 hset (by linarith)

/-- non-vacuity: a strictly convex program over the reals -/
example : ∃ (q : Qp ℝ 1 1) (xs ls : Fin 1 → ℝ), q.StronglyConvex 1 ∧ q.Independent (fun _ _ => 1) ∧ q.Optimal xs ls ∧ xs 0 = 3 := by
  refine ⟨{ H := Matrix.of fun _ _ => 1, g := fun _ => 0, A := fun _ _ => 1, b := fun _ => 3 }, fun _ => 3, fun _ => -3, ⟨by norm_num, by ext; rfl, ?_⟩, ?_, ⟨?_, ?_⟩, rfl⟩
  · intro v
    simp
    nlinarith [sq_nonneg (v 0)]
  · intro i i'
    simp [Subsingleton.elim i i']
  · intro j; simp [Qp.lagrangian, Qp.gradient]
  · intro i; simp [Qp.residual]

end ProxNLP
