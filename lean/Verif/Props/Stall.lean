import Verif.Lemmas.StallStep
import Verif.Props.QpDefaults

/-!
C93: the default (classic) formulation on strictly convex quadratic programs with inequality constraints.  After a partial step the
Newton direction of the classic system can be a direction of ascent of the merit function; the line search then rejects every trial,
the smallest step is taken, and the next direction points to the same place.
-/

set_option linter.unusedSectionVars false
namespace ProxNLP

open Spec

variable {K : Type} {n m : ℕ} [Field K] [LinearOrder K] [IsStrictOrderedRing K]

/-- **C93, line search**: along a direction of ascent in which the function lies above its tangent, by an amount that does not decrease
with the step, every trial of the search (any interpolation) is rejected and the step returned is the smallest one. -/
theorem C93_linesearch (sqrt : K → K) (sing : LSSample K → LSSample K → K → K → Option K) (o : LSOptions K) (ho : HalvingLS o sqrt)
    (F : K → K) (phi0 dphi0 : K) (hd : 0 < dphi0) (hth : o.dphiThresh ≤ dphi0)
    (habove : ∀ a, 0 < a → a ≤ 1 → phi0 + a * dphi0 < F a)
    (hmono : ∀ a b, 0 < a → a ≤ b → b ≤ 1 → F a - (phi0 + a * dphi0) ≤ F b - (phi0 + b * dphi0)) (fuel : ℕ) (r : LSResult K)
    (h : lsRun sqrt sing (fun a => some (F a)) o phi0 dphi0 fuel = some r) : r.alpha = max ((1 / 2) ^ o.maxNumSteps) o.alphaMin :=
  lsRun_up sqrt ho.sqrt sing o ho.cmin ho.cmax_lo ho.cmax_hi ho.c1 F phi0 dphi0 hd hth (fun a h0 h1 => by have := habove a h0 h1; linarith)
    (fun a b h0 h1 h2 => by have := hmono a b h0 h1 h2; linarith) fuel r h

/-- **C93, stall**: if the Newton direction `(d, dl)` at the current point increases the merit function, a row is out of the system with
a negative multiplier, and the rows of the system do not change on the first part `1 - (1 - alpha)^k` of the segment to the Newton
point, then the inner loop spends `k` iterations to get just there, and with a budget of `k` iterations it ends with
MAX_ITERS_REACHED. -/
theorem C93_stall [Archimedean K] (q : Qp K n m) (h : K) (hc : q.StronglyConvex h) (p : InertiaParams K) (hp : GoodParams p)
    (h0 : p.deltaInit = 0) (hpm : 0 ≤ p.deltaMax) (ls : LSOptions K) (hgl : GoodLS ls) :
    ∃ N : ℕ, ∀ C : StepCfg (Fin n → K) K n m, IsIneqQp C q → C.inertia = p → C.ls = ls → HalvingLS C.ls C.sqrt → lastStep ls < 1 →
      N ≤ C.fuel → LibraryBackend C.backend →
      ∀ (S : Settings K), S.pdalBeta = 1 / 2 → S.kkt = .classic →
      ∀ (st : St (Fin n → K) K (Hidden K n m) m) (d : Fin n → K) (dl : Fin m → K) (r : Fin m) (k : ℕ), st.rho = 0 → st.setMu = st.mu →
        0 < st.mu → q.ClassicNewton st.mu st.lamsPrev st.xOpt st.lamsOpt d dl →
        0 < q.slope st.mu st.lamsPrev st.xOpt st.lamsOpt d dl →
        ls.dphiThresh ≤ (1 - lastStep ls) ^ k * q.slope st.mu st.lamsPrev st.xOpt st.lamsOpt d dl →
        (∀ t, 0 ≤ t → t ≤ 1 - (1 - lastStep ls) ^ k → ∀ i,
          (0 < q.shifted st.mu st.lamsPrev (st.xOpt + t • d) i ↔ 0 < q.shifted st.mu st.lamsPrev st.xOpt i)) →
        q.shifted st.mu st.lamsPrev st.xOpt r ≤ 0 → 0 ≤ st.lamsPrev r → st.lamsOpt r < 0 →
        max st.innerTol S.targetTol < (1 - lastStep ls) ^ k * (st.mu * -st.lamsOpt r) → 0 < k → S.maxIters = st.numIters + k →
        ∃ st', innerLoop (concreteCtx C) S st = .ok st' ∧ st'.converged = .maxIters ∧
          st'.xOpt = st.xOpt + (1 - (1 - lastStep ls) ^ k) • d ∧ st'.lamsOpt = st.lamsOpt + (1 - (1 - lastStep ls) ^ k) • dl ∧
          S.targetTol < st'.prim ∧ st'.numIters = S.maxIters := by
  obtain ⟨N, hN⟩ := C72_step_returns (n := n) (m := m) p hp (by rw [h0]; exact hpm) ls hgl
  refine ⟨N, fun C hq hCp hCl hls hal hf hB S hb hk st d dl r k hr hm hmu hNew hs hth hrows hrow hprev hneg htol hk0 hmax => ?_⟩
  subst hCl
  obtain ⟨st', w1, w2, w3, w4, w5, w6⟩ := iq_stall C q h S
    { qp := hq, convex := hc, params := by rw [hCp]; exact hp, deltaInit := by rw [hCp]; exact h0, deltaMax := by rw [hCp]; exact hpm,
      backend := hB, ret := hN C hCp rfl hf fun A => hB.entries A, beta := hb, kkt := hk } hls r k st d dl hr hm hmu hNew hs hth hrows hrow
    hprev (lt_of_le_of_lt (le_max_left _ _) htol) (lt_of_le_of_lt (le_max_right _ _) htol) hneg hk0 hal hmax
  exact ⟨st', w1, w2, w5, w6, w3, w4⟩

/-- **C93, positive part**: if the rows of the system at the Newton point are those at the current point, the Newton point solves the
augmented Lagrangian subproblem.  (Missing for the full property: that such a point is reached; `C93_default_false` shows a run in
which it is not.) -/
theorem C93_newton_point_partial (q : Qp K n m) (mu : K) (hmu : 0 < mu) (prev : Fin m → K) (x : Fin n → K)
    (lam : Fin m → K) (d : Fin n → K) (dl : Fin m → K) (hN : q.ClassicNewton mu prev x lam d dl)
    (hr : ∀ i, 0 < q.residual (x + d) i + mu * prev i ↔ 0 < q.residual x i + mu * prev i) :
    (∀ j, q.lagrangian (x + d) (lam + dl) j = 0) ∧
      ∀ i, 0 ≤ (lam + dl) i ∧ mu * (lam + dl) i = max (q.residual (x + d) i + mu * prev i) 0 := by
  have hr' : ∀ i, 0 < q.shifted mu prev (x + (1 : K) • d) i ↔ 0 < q.shifted mu prev x i := by
    rw [one_smul]; exact hr
  have h := ClassicNewton.shrink q mu prev x lam d dl 1 hN hr'
  simp only [one_smul, sub_self, zero_smul] at h
  refine ⟨fun j => ?_, fun i => ?_⟩
  · have := h.1 j
    simp only [Pi.zero_apply, mul_zero, Finset.sum_const_zero, add_zero] at this
    linarith
  · have := h.2 i
    have e : q.shifted mu prev (x + d) i = q.residual (x + d) i + mu * prev i := rfl
    rw [e] at this
    have h2 : mu * (lam + dl) i = max (q.residual (x + d) i + mu * prev i) 0 := by
      split_ifs at this with hh
      · simp only [Pi.zero_apply, mul_zero, Finset.sum_const_zero, sub_zero] at this
        rw [max_eq_left hh.le]; linarith
      · rw [max_eq_right (not_lt.1 hh)]
        have h3 : (lam + dl) i = 0 := by simp only [Pi.zero_apply] at this; linarith
        rw [h3, mul_zero]
    refine ⟨?_, h2⟩
    have h3 : 0 ≤ mu * (lam + dl) i := by rw [h2]; exact le_max_right _ _
    exact nonneg_of_mul_nonneg_right h3 hmu

/-- non-vacuity: minimise `½x²` subject to `x ≥ 1` from `0` -/
example : ∃ (q : Qp ℚ 1 1), q.ClassicNewton (1 / 100) 0 0 0 (fun _ => 100 / 101) (fun _ => 100 / 101) ∧
    ∀ i, 0 < q.residual (0 + fun _ => 100 / 101) i + 1 / 100 * (0 : Fin 1 → ℚ) i ↔ 0 < q.residual 0 i + 1 / 100 * (0 : Fin 1 → ℚ) i := by
  refine ⟨{ H := 1, g := fun _ => 0, A := fun _ _ => -1, b := fun _ => -1 }, ⟨?_, ?_⟩, ?_⟩
  · intro j; rw [Subsingleton.elim j 0]; simp [Qp.lagrangian, Qp.gradient]
  · intro i; simp [Qp.shifted, Qp.residual]; norm_num
  · intro i; simp [Qp.residual]; norm_num

/-- a search whose first trial is rejected and whose second, at the left end of the interval, is accepted -/
theorem lsRun_second (sqrt : ℝ → ℝ) (sing : LSSample ℝ → LSSample ℝ → ℝ → ℝ → Option ℝ) (F : ℝ → ℝ) (phi0 dphi0 : ℝ)
    (hd : 1 / 10000000000000 ≤ -dphi0) (h1 : 1 / 10000 * dphi0 < F 1 - phi0)
    (hv : -dphi0 < F 1 - phi0 - dphi0) (h2 : F (1 / 2) - phi0 ≤ 1 / 10000 * (1 / 2) * dphi0) (fuel : ℕ) (r : LSResult ℝ)
    (h : lsRun sqrt sing (fun a => some (F a)) defaultLinesearch phi0 dphi0 fuel = some r) : r.alpha = 1 / 2 := by
  unfold lsRun at h
  cases fuel with
  | zero => simp [lsFirst] at h
  | succ fuel =>
    rw [lsFirst] at h
    simp only at h
    rw [if_neg (by rw [abs_of_nonpos (by linarith), not_lt]; exact hd)] at h
    cases h
    show (lsLoop sqrt sing (fun a => some (F a)) defaultLinesearch phi0 dphi0 [1] (19 + 1) 1 (LSSample.mk' 1 (F 1)) LSSample.default []).alpha = _
    rw [lsLoop, if_neg (by
      show ¬ F 1 - phi0 ≤ 1 / 10000 * 1 * dphi0
      rw [mul_one]; exact not_le.2 h1)]
    have hnext : lsNextAlpha sqrt sing defaultLinesearch phi0 dphi0 1 (LSSample.mk' 1 (F 1)) LSSample.default = 1 / 2 := by
      have hm : minimizeQuad phi0 dphi0 (LSSample.mk' 1 (F 1)) (1 / 2 * 1) (4 / 5 * 1) = some (1 / 2) := by
        unfold minimizeQuad
        rw [if_neg (show ¬ (LSSample.mk' (1 : ℝ) (F 1)).alpha = 0 from one_ne_zero)]
        show safeguard [(F 1 - phi0 - 1 * dphi0) / (1 * 1), dphi0, phi0] (1 / 2 * 1) (4 / 5 * 1)
          (if 2 * ((F 1 - phi0 - 1 * dphi0) / (1 * 1)) = 0 then _ else .fin (-dphi0 / (2 * ((F 1 - phi0 - 1 * dphi0) / (1 * 1))))) = _
        have e : (F 1 - phi0 - 1 * dphi0) / (1 * 1) = F 1 - phi0 - dphi0 := by ring
        rw [e]
        set a := F 1 - phi0 - dphi0
        rw [if_neg (by linarith)]
        have hc : -dphi0 / (2 * a) < 1 / 2 * 1 := by rw [div_lt_iff₀ (by linarith)]; linarith
        unfold safeguard
        simp only
        rw [if_pos (Or.inr hc), if_pos]
        · norm_num
        · simp only [polyEvaluate_quad]
          nlinarith
      unfold lsNextAlpha
      simp only [show (defaultLinesearch).interp = .cubic from rfl, show (LSSample.default : LSSample ℝ).valid = false from rfl,
        show defaultLinesearch.contractionMin = 1 / 2 from rfl, show defaultLinesearch.contractionMax = 4 / 5 from rfl,
        show defaultLinesearch.alphaMin = 1 / 1000000 from rfl, Bool.false_eq_true, if_false, hm]
      norm_num
    rw [hnext]
    simp only
    rw [if_neg (by norm_num [defaultLinesearch])]
    show (lsLoop sqrt sing (fun a => some (F a)) defaultLinesearch phi0 dphi0 [1] (18 + 1) (1 / 2) (LSSample.mk' (1 / 2) (F (1 / 2))) _ _).alpha = _
    rw [lsLoop, if_pos (by exact h2)]
    show max _ _ = _
    norm_num [defaultLinesearch]

namespace Demo

/-- minimise `½|x|² - x₁` subject to `x₁ ≥ 1`, `x₁ ≤ 2 x₂`, `3 x₂ ≤ 3 x₁ + 1` -/
noncomputable def stallQp : Qp ℝ 2 3 where
  H := 1
  g := ![-1, 0]
  A := ![![-3, 0], ![1, -2], ![-3, 3]]
  b := ![-3, 0, 1]

end Demo

theorem stallQp_convex : Demo.stallQp.StronglyConvex 1 where
  pos := one_pos
  symm := Matrix.isSymm_one
  bound := by
    intro v
    simp [Demo.stallQp, Matrix.one_apply, Fin.sum_univ_two]
    nlinarith [sq_nonneg (v 0), sq_nonneg (v 1)]

/-- the program has a solution -/
theorem stallQp_optimal : Demo.stallQp.OptimalIneq ![1, 1 / 2] ![1 / 12, 1 / 4, 0] := by
  refine ⟨fun j => ?_, fun i => ?_, fun i => ?_⟩
  · fin_cases j <;> simp [Qp.lagrangian, Qp.gradient, Demo.stallQp, Matrix.one_apply, Fin.sum_univ_succ] <;> norm_num
  · fin_cases i <;> simp [Qp.residual, Demo.stallQp, Fin.sum_univ_succ] <;> norm_num
  · fin_cases i <;> simp [Qp.residual, Demo.stallQp, Fin.sum_univ_succ]

/-- the program in coordinates -/
theorem stallQp_forms (x : Fin 2 → ℝ) (lam : Fin 3 → ℝ) (mu : ℝ) (d : Fin 2 → ℝ) (dl : Fin 3 → ℝ) :
    Demo.stallQp.cost x = 1 / 2 * (x 0 ^ 2 + x 1 ^ 2) - x 0 ∧
    Demo.stallQp.gradient x = ![x 0 - 1, x 1] ∧
    (∀ i, Demo.stallQp.shifted mu 0 x i = Demo.stallQp.residual x i) ∧
    Demo.stallQp.residual x = ![3 - 3 * x 0, x 0 - 2 * x 1, -3 * x 0 + 3 * x 1 - 1] ∧
    Demo.stallQp.lagrangian x lam = ![x 0 - 1 - 3 * lam 0 + lam 1 - 3 * lam 2, x 1 - 2 * lam 1 + 3 * lam 2] ∧
    (fun i => ∑ j, Demo.stallQp.A i j * d j) = ![-3 * d 0, d 0 - 2 * d 1, -3 * d 0 + 3 * d 1] ∧
    (fun j => ∑ i, Demo.stallQp.A i j * dl i) = ![-3 * dl 0 + dl 1 - 3 * dl 2, -2 * dl 1 + 3 * dl 2] ∧
    (fun j => ∑ k, Demo.stallQp.H j k * d k) = d := by
  refine ⟨?_, ?_, ?_, ?_, ?_, ?_, ?_, ?_⟩
  · simp [Qp.cost, Demo.stallQp, Matrix.one_apply, Fin.sum_univ_two]; ring
  · funext j; fin_cases j <;> simp [Qp.gradient, Demo.stallQp, Matrix.one_apply]; ring
  · intro i; simp [Qp.shifted]
  · funext i; fin_cases i <;> simp [Qp.residual, Demo.stallQp, Fin.sum_univ_two] <;> ring
  · funext j; fin_cases j <;> simp [Qp.lagrangian, Qp.gradient, Demo.stallQp, Matrix.one_apply, Fin.sum_univ_succ] <;> ring
  · funext i; fin_cases i <;> simp [Demo.stallQp, Fin.sum_univ_two]; ring
  · funext j; fin_cases j <;> simp [Demo.stallQp, Fin.sum_univ_succ] <;> ring
  · funext j; fin_cases j <;> simp [Demo.stallQp, Matrix.one_apply]

theorem stallQp_merit (x : Fin 2 → ℝ) (lam : Fin 3 → ℝ) :
    Demo.stallQp.merit (1 / 100) 0 x lam = 1 / 2 * (x 0 ^ 2 + x 1 ^ 2) - x 0 +
      ((100 * max (3 - 3 * x 0 - 1 / 200 * lam 0) 0 ^ 2 + 1 / 400 * lam 0 ^ 2) +
       (100 * max (x 0 - 2 * x 1 - 1 / 200 * lam 1) 0 ^ 2 + 1 / 400 * lam 1 ^ 2) +
       (100 * max (-3 * x 0 + 3 * x 1 - 1 - 1 / 200 * lam 2) 0 ^ 2 + 1 / 400 * lam 2 ^ 2)) := by
  obtain ⟨f1, -, f3, f4, -⟩ := stallQp_forms x lam (1 / 100) 0 0
  unfold Qp.merit
  simp only [f1, f3, f4, Fin.sum_univ_three, Matrix.cons_val]
  norm_num

theorem stallQp_slope (x : Fin 2 → ℝ) (lam : Fin 3 → ℝ) (d : Fin 2 → ℝ) (dl : Fin 3 → ℝ) :
    Demo.stallQp.slope (1 / 100) 0 x lam d dl = (x 0 - 1) * d 0 + x 1 * d 1 +
      ((200 * max (3 - 3 * x 0 - 1 / 200 * lam 0) 0 * (-3 * d 0 - 1 / 200 * dl 0) + 1 / 200 * lam 0 * dl 0) +
       (200 * max (x 0 - 2 * x 1 - 1 / 200 * lam 1) 0 * (d 0 - 2 * d 1 - 1 / 200 * dl 1) + 1 / 200 * lam 1 * dl 1) +
       (200 * max (-3 * x 0 + 3 * x 1 - 1 - 1 / 200 * lam 2) 0 * (-3 * d 0 + 3 * d 1 - 1 / 200 * dl 2) + 1 / 200 * lam 2 * dl 2)) := by
  obtain ⟨-, f2, f3, f4, -, f6, -⟩ := stallQp_forms x lam (1 / 100) d dl
  have f6' : ∀ i, ∑ j, Demo.stallQp.A i j * d j = (![-3 * d 0, d 0 - 2 * d 1, -3 * d 0 + 3 * d 1] : Fin 3 → ℝ) i := fun i => congrFun f6 i
  unfold Qp.slope
  rw [f2]
  simp only [f3, f4, f6', Fin.sum_univ_three, Fin.sum_univ_two, Matrix.cons_val]
  norm_num

theorem stallQp_newton (x : Fin 2 → ℝ) (lam : Fin 3 → ℝ) (d : Fin 2 → ℝ) (dl : Fin 3 → ℝ)
    (h1 : d 0 + (-3 * dl 0 + dl 1 - 3 * dl 2) = -(x 0 - 1 - 3 * lam 0 + lam 1 - 3 * lam 2))
    (h2 : d 1 + (-2 * dl 1 + 3 * dl 2) = -(x 1 - 2 * lam 1 + 3 * lam 2))
    (h3 : if 0 < 3 - 3 * x 0 then -3 * d 0 - 1 / 100 * dl 0 = -(3 - 3 * x 0 - 1 / 100 * lam 0) else dl 0 = -lam 0)
    (h4 : if 0 < x 0 - 2 * x 1 then d 0 - 2 * d 1 - 1 / 100 * dl 1 = -(x 0 - 2 * x 1 - 1 / 100 * lam 1) else dl 1 = -lam 1)
    (h5 : if 0 < -3 * x 0 + 3 * x 1 - 1 then -3 * d 0 + 3 * d 1 - 1 / 100 * dl 2 = -(-3 * x 0 + 3 * x 1 - 1 - 1 / 100 * lam 2)
      else dl 2 = -lam 2) :
    Demo.stallQp.ClassicNewton (1 / 100) 0 x lam d dl := by
  obtain ⟨-, -, f3, f4, f5, f6, f7, f8⟩ := stallQp_forms x lam (1 / 100) d dl
  refine ⟨fun j => ?_, fun i => ?_⟩
  · have e7 := congrFun f7 j
    have e8 := congrFun f8 j
    beta_reduce at e7 e8
    rw [e7, e8, f5]
    fin_cases j
    · exact h1
    · exact h2
  · have e6 := congrFun f6 i
    beta_reduce at e6
    rw [e6, f3, f4]
    fin_cases i
    · exact h3
    · exact h4
    · exact h5

namespace Demo

/-- the point after the first iteration -/
noncomputable def stallX1 : Fin 2 → ℝ := ![1111901 / 1263201, 1231400 / 1263201]
noncomputable def stallL1 : Fin 3 → ℝ := ![15130000 / 421067, -135089900 / 1263201, -30156800 / 421067]

/-- the point after the second iteration -/
noncomputable def stallX2 : Fin 2 → ℝ := ![1187551 / 1263201, 615700 / 1263201]
noncomputable def stallL2 : Fin 3 → ℝ := ![7565000 / 421067, -67544950 / 1263201, -15078400 / 421067]

end Demo

open Demo

theorem stallL1_0 : stallL1 0 = 15130000 / 421067 := rfl
theorem stallL1_1 : stallL1 1 = -135089900 / 1263201 := rfl
theorem stallL1_2 : stallL1 2 = -30156800 / 421067 := rfl
theorem stallL2_0 : stallL2 0 = 7565000 / 421067 := rfl
theorem stallL2_1 : stallL2 1 = -67544950 / 1263201 := rfl
theorem stallL2_2 : stallL2 2 = -15078400 / 421067 := rfl
theorem stallX1_0 : stallX1 0 = 1111901 / 1263201 := rfl
theorem stallX1_1 : stallX1 1 = 1231400 / 1263201 := rfl
theorem stallX2_0 : stallX2 0 = 1187551 / 1263201 := rfl
theorem stallX2_1 : stallX2 1 = 615700 / 1263201 := rfl

theorem stall_newton1 : stallQp.ClassicNewton (1 / 100) 0 ![-3, -2] 0 ![4901504 / 1263201, 3757802 / 1263201] stallL1 := by
  apply stallQp_newton <;> norm_num [stallL1_0, stallL1_1, stallL1_2]

theorem stall_newton2 : stallQp.ClassicNewton (1 / 100) 0 stallX1 stallL1 ![151300 / 1263201, -1231400 / 1263201] (-stallL1) := by
  apply stallQp_newton <;> norm_num [stallL1_0, stallL1_1, stallL1_2, stallX1_0, stallX1_1]

theorem stall_newton3 : stallQp.ClassicNewton (1 / 100) 0 stallX2 stallL2 ![75650 / 1263201, -615700 / 1263201] (-stallL2) := by
  apply stallQp_newton <;> norm_num [stallL2_0, stallL2_1, stallL2_2, stallX2_0, stallX2_1]

theorem stall_first : stallQp.merit (1 / 100) 0 stallX1 stallL1 - stallQp.merit (1 / 100) 0 ![-3, -2] 0 ≤
    1 / 10000 * 1 * stallQp.slope (1 / 100) 0 ![-3, -2] 0 ![4901504 / 1263201, 3757802 / 1263201] stallL1 := by
  rw [stallQp_merit, stallQp_merit, stallQp_slope]
  norm_num [stallL1_0, stallL1_1, stallL1_2, stallX1_0, stallX1_1, max_def]

theorem stall_second : let d : Fin 2 → ℝ := ![151300 / 1263201, -1231400 / 1263201]
    let phi0 := stallQp.merit (1 / 100) 0 stallX1 stallL1
    let slope := stallQp.slope (1 / 100) 0 stallX1 stallL1 d (-stallL1)
    let F := fun a : ℝ => stallQp.merit (1 / 100) 0 (stallX1 + a • d) (stallL1 + a • -stallL1)
    1 / 10000000000000 ≤ -slope ∧ 1 / 10000 * slope < F 1 - phi0 ∧ -slope < F 1 - phi0 - slope ∧
      F (1 / 2) - phi0 ≤ 1 / 10000 * (1 / 2) * slope := by
  intro d phi0 slope F
  have e1 : slope = stallQp.slope (1 / 100) 0 stallX1 stallL1 d (-stallL1) := rfl
  have e2 : phi0 = stallQp.merit (1 / 100) 0 stallX1 stallL1 := rfl
  have e3 : F 1 = stallQp.merit (1 / 100) 0 (stallX1 + (1 : ℝ) • d) (stallL1 + (1 : ℝ) • -stallL1) := rfl
  have e4 : F (1 / 2) = stallQp.merit (1 / 100) 0 (stallX1 + (1 / 2 : ℝ) • d) (stallL1 + (1 / 2 : ℝ) • -stallL1) := rfl
  rw [stallQp_slope] at e1
  rw [stallQp_merit] at e2 e3 e4
  norm_num [d, stallL1_0, stallL1_1, stallL1_2, stallX1_0, stallX1_1, max_def] at e1 e2 e3 e4
  rw [e1, e2, e3, e4]
  norm_num

theorem stall_slope3 : 11 < stallQp.slope (1 / 100) 0 stallX2 stallL2 ![75650 / 1263201, -615700 / 1263201] (-stallL2) := by
  rw [stallQp_slope]
  norm_num [stallL2_0, stallL2_1, stallL2_2, stallX2_0, stallX2_1, max_def]

theorem default_halving : HalvingLS defaultLinesearch Real.sqrt where
  cmin := rfl
  cmax_lo := by norm_num [defaultLinesearch]
  cmax_hi := by norm_num [defaultLinesearch]
  c1 := by norm_num [defaultLinesearch]
  amin := by norm_num [defaultLinesearch]
  amin_le := by norm_num [defaultLinesearch]
  sqrt y hy := ⟨Real.sqrt_nonneg y, Real.sq_sqrt hy⟩

theorem default_lastStep : lastStep defaultLinesearch = 1 / 1000000 := by
  show max ((1 / 2 : ℝ) ^ 20) (1 / 1000000) = _
  norm_num

/-- the part of the segment covered in at most 30000 steps -/
theorem stall_part (k : ℕ) (hk : k ≤ 30000) : (97 / 100 : ℝ) ≤ (1 - 1 / 1000000) ^ k := by
  have h := one_add_mul_le_pow (show (-2 : ℝ) ≤ -(1 / 1000000) by norm_num) k
  have hk' : (k : ℝ) ≤ 30000 := by exact_mod_cast hk
  have e : (1 : ℝ) - 1 / 1000000 = 1 + -(1 / 1000000) := by ring
  rw [e]
  refine le_trans ?_ h
  nlinarith

/-- the rows of the system on the first part of the segment -/
theorem stall_rows (t : ℝ) (h0 : 0 ≤ t) (h1 : t ≤ 3 / 100) (i : Fin 3) :
    0 < stallQp.shifted (1 / 100) 0 (stallX2 + t • ![75650 / 1263201, -615700 / 1263201]) i ↔
      0 < stallQp.shifted (1 / 100) 0 stallX2 i := by
  obtain ⟨-, -, f3, f4, -⟩ := stallQp_forms stallX2 0 (1 / 100) 0 0
  obtain ⟨-, -, g3, g4, -⟩ := stallQp_forms (stallX2 + t • ![75650 / 1263201, -615700 / 1263201]) 0 (1 / 100) 0 0
  rw [f3, g3, f4, g4]
  have e0 : (stallX2 + t • (![75650 / 1263201, -615700 / 1263201] : Fin 2 → ℝ)) 0 = 1187551 / 1263201 + t * (75650 / 1263201) := rfl
  have e1 : (stallX2 + t • (![75650 / 1263201, -615700 / 1263201] : Fin 2 → ℝ)) 1 = 615700 / 1263201 + t * (-615700 / 1263201) := rfl
  rw [e0, e1, stallX2_0, stallX2_1]
  fin_cases i
  · show 0 < 3 - 3 * (1187551 / 1263201 + t * (75650 / 1263201)) ↔ (0 : ℝ) < 3 - 3 * (1187551 / 1263201)
    constructor <;> intro _ <;> linarith
  · show 0 < 1187551 / 1263201 + t * (75650 / 1263201) - 2 * (615700 / 1263201 + t * (-615700 / 1263201)) ↔
      (0 : ℝ) < 1187551 / 1263201 - 2 * (615700 / 1263201)
    constructor <;> intro _ <;> linarith
  · show 0 < -3 * (1187551 / 1263201 + t * (75650 / 1263201)) + 3 * (615700 / 1263201 + t * (-615700 / 1263201)) - 1 ↔
      (0 : ℝ) < -3 * (1187551 / 1263201) + 3 * (615700 / 1263201) - 1
    constructor <;> intro _ <;> linarith

theorem stall_inner (C : StepCfg (Fin 2 → ℝ) ℝ 2 3) (S : Settings ℝ) (hC : IqLoop C stallQp 1 S) (hls : C.ls = defaultLinesearch)
    (hsq : C.sqrt = Real.sqrt) (htol : S.targetTol ≤ 1 / 2) (h3 : 3 ≤ S.maxIters) (hmax : S.maxIters ≤ 30000)
    (st : St (Fin 2 → ℝ) ℝ (Hidden ℝ 2 3) 3) (hr : st.rho = 0) (hm : st.setMu = st.mu) (hmu : st.mu = 1 / 100)
    (hx : st.xOpt = ![-3, -2]) (hl : st.lamsOpt = 0) (hp : st.lamsPrev = 0) (hi : st.innerTol = 1 / 100) (hn : st.numIters = 0) :
    ∃ st', innerLoop (concreteCtx C) S st = .ok st' ∧ st'.converged = .maxIters ∧ S.targetTol < st'.prim ∧ st'.numIters = S.maxIters ∧
      1 / 6 < stallQp.residual st'.xOpt 0 := by
  -- first iteration
  obtain ⟨d, dl, r, st1, a1, a2, a3, a4, a5, a6, a7, a8, a9, a10, a11, a12⟩ := iq_iter C stallQp 1 S hC st hr hm (by rw [hmu]; norm_num)
    (Or.inl ⟨0, by
      rw [hx, hl, hi, (stallQp_forms ![-3, -2] 0 0 0 0).2.2.2.2.1]
      norm_num⟩)
    ⟨0, by
      rw [hx, hl, (stallQp_forms ![-3, -2] 0 0 0 0).2.2.2.1]
      norm_num
      linarith⟩
  rw [hmu, hp, hx, hl] at a1 a2
  obtain ⟨rfl, rfl⟩ := ClassicNewton.unique stallQp 1 hC.convex (1 / 100) (by norm_num) 0 _ _ d _ dl _ a1 stall_newton1
  have w1 : (![-3, -2] : Fin 2 → ℝ) + (1 : ℝ) • ![4901504 / 1263201, 3757802 / 1263201] = stallX1 := by
    funext j; fin_cases j <;> norm_num [stallX1]
  have w2 : (0 : Fin 3 → ℝ) + (1 : ℝ) • stallL1 = stallL1 := by simp
  have b1 : r.alpha = 1 := by
    rw [hls] at a2
    refine lsRun_full C.sqrt C.sing
      (fun a => some (stallQp.merit (1 / 100) 0 (![-3, -2] + a • ![4901504 / 1263201, 3757802 / 1263201]) (0 + a • stallL1)))
      defaultLinesearch (by norm_num [defaultLinesearch]) _ _ _ rfl ?_ C.fuel r a2
    rw [w1, w2]
    exact stall_first
  rw [b1, hx, w1] at a3
  rw [b1, hl, w2] at a4
  rw [a12, if_neg (by omega)]
  rw [hmu] at a6 a7
  rw [hp] at a8
  rw [hi] at a9
  rw [hn] at a10
  -- second iteration
  have hrow1 : stallQp.shifted (1 / 100) 0 stallX1 1 ≤ 0 := by
    rw [(stallQp_forms stallX1 0 (1 / 100) 0 0).2.2.1, (stallQp_forms stallX1 0 (1 / 100) 0 0).2.2.2.1]
    show stallX1 0 - 2 * stallX1 1 ≤ 0
    rw [stallX1_0, stallX1_1]
    norm_num
  obtain ⟨d, dl, r2, st2, c1, c2, c3, c4, c5, c6, c7, c8, c9, c10, -, c12⟩ := iq_iter C stallQp 1 S hC st1 a5 (by rw [a6, a7])
    (by rw [a7]; norm_num)
    (Or.inr ⟨1, by
      rw [a7, a8, a3, a4, a9, max_eq_right hrow1, stallL1_1]
      norm_num⟩)
    ⟨1, by
      rw [a3, a4, a7, (stallQp_forms stallX1 0 0 0 0).2.2.2.1, stallL1_1]
      show _ < |stallX1 0 - 2 * stallX1 1 - min (stallX1 0 - 2 * stallX1 1 + _) 0|
      rw [stallX1_0, stallX1_1]
      norm_num
      linarith⟩
  rw [a7, a8, a3, a4] at c1 c2
  obtain ⟨rfl, rfl⟩ := ClassicNewton.unique stallQp 1 hC.convex (1 / 100) (by norm_num) 0 _ _ d _ dl _ c1 stall_newton2
  have b2 : r2.alpha = 1 / 2 := by
    rw [hls] at c2
    obtain ⟨s1, s2, s3, s4⟩ := stall_second
    exact lsRun_second C.sqrt C.sing _ _ _ s1 s2 s3 s4 C.fuel r2 c2
  rw [b2, a3] at c3
  rw [b2, a4] at c4
  have w3 : stallX1 + (1 / 2 : ℝ) • ![151300 / 1263201, -1231400 / 1263201] = stallX2 := by
    funext j; fin_cases j <;> norm_num [stallX1, stallX2]
  have w4 : stallL1 + (1 / 2 : ℝ) • -stallL1 = stallL2 := by
    funext j
    show stallL1 j + 1 / 2 * -stallL1 j = stallL2 j
    fin_cases j
    · show stallL1 0 + 1 / 2 * -stallL1 0 = stallL2 0
      rw [stallL1_0, stallL2_0]; norm_num
    · show stallL1 1 + 1 / 2 * -stallL1 1 = stallL2 1
      rw [stallL1_1, stallL2_1]; norm_num
    · show stallL1 2 + 1 / 2 * -stallL1 2 = stallL2 2
      rw [stallL1_2, stallL2_2]; norm_num
  rw [w3] at c3
  rw [w4] at c4
  rw [a7] at c6 c7
  rw [a8] at c8
  rw [a9] at c9
  rw [a10] at c10
  rw [c12, if_neg (by omega)]
  -- all further iterations
  obtain ⟨k, hk⟩ : ∃ k, S.maxIters = 2 + k := ⟨S.maxIters - 2, by omega⟩
  have hpart := stall_part k (by omega)
  have hlast : lastStep C.ls = 1 / 1000000 := by rw [hls]; exact default_lastStep
  have hrow2 : stallQp.shifted (1 / 100) 0 stallX2 1 ≤ 0 := by
    rw [(stallQp_forms stallX2 0 (1 / 100) 0 0).2.2.1, (stallQp_forms stallX2 0 (1 / 100) 0 0).2.2.2.1]
    show stallX2 0 - 2 * stallX2 1 ≤ 0
    rw [stallX2_0, stallX2_1]
    norm_num
  have hslope := stall_slope3
  have hll : 1 / 100 * -stallL2 1 = 1350899 / 2526402 := by rw [stallL2_1]; norm_num
  obtain ⟨st', v1, v2, v3, v4, v5, v6⟩ := iq_stall C stallQp 1 S hC (by rw [hls, hsq]; exact default_halving) 1 k st2
    ![75650 / 1263201, -615700 / 1263201] (-stallL2) c5 (by rw [c6, c7]) (by rw [c7]; norm_num)
    (by rw [c7, c8, c3, c4]; exact stall_newton3)
    (by rw [c7, c8, c3, c4]; linarith)
    (by
      rw [c7, c8, c3, c4, hlast, hls]
      show (1 / 10000000000000 : ℝ) ≤ _
      nlinarith)
    (by
      rw [c7, c8, c3, hlast]
      intro t h0 h1
      exact stall_rows t h0 (by linarith))
    (by rw [c7, c8, c3]; exact hrow2) (by rw [c8]; exact le_rfl)
    (by rw [c9, c7, c4, hlast, hll]; linarith)
    (by rw [c7, c4, hlast, hll]; linarith)
    (by rw [c4, stallL2_1]; norm_num) (by omega) (by rw [hlast]; norm_num) (by omega)
  refine ⟨st', v1, v2, v3, v4, ?_⟩
  rw [v5, c3, hlast, (stallQp_forms _ 0 0 0 0).2.2.2.1]
  show (1 / 6 : ℝ) < 3 - 3 * (stallX2 0 + (1 - (1 - 1 / 1000000) ^ k) * (75650 / 1263201))
  rw [stallX2_0]
  linarith

/-- **C93, negative result**: with the default settings, line search and regularisation, and any of the library's linear solvers, `solve`
on the strictly convex, feasible program `stallQp`, started at `(-3, -2)` with zero multipliers, ends with MAX_ITERS_REACHED for every
iteration budget from 3 to 30000 (the default is 100), at a point that violates a constraint by more than 1/6. -/
theorem C93_default_false : ∃ N : ℕ, ∀ C : StepCfg (Fin 2 → ℝ) ℝ 2 3, IsIneqQp C stallQp → C.inertia = defaultInertia →
    C.ls = defaultLinesearch → C.sqrt = Real.sqrt → N ≤ C.fuel → LibraryBackend C.backend →
    ∀ (tol : ℝ) (maxIters maxAlIters : ℕ), tol ≤ 1 / 2 → 3 ≤ maxIters → maxIters ≤ 30000 → 1 ≤ maxAlIters →
    ∀ st : St (Fin 2 → ℝ) ℝ (Hidden ℝ 2 3) 3, st.hasSetup = true →
      ∃ st', solve (concreteCtx C) (defaultSettings tol .classic maxIters maxAlIters) st ![-3, -2] 3 0 = .ok st' ∧
        st'.converged = .maxIters ∧ 1 / 6 < stallQp.residual st'.xOpt 0 := by
  obtain ⟨N, hN⟩ := C72_step_returns (n := 2) (m := 3) defaultInertia (by constructor <;> norm_num [defaultInertia])
    (by norm_num [defaultInertia]) defaultLinesearch (by constructor <;> norm_num [defaultLinesearch])
  refine ⟨N, fun C hq hCp hCl hsq hf hB tol maxIters maxAl htol h3 hmax hal st hset => ?_⟩
  set S := defaultSettings tol .classic maxIters maxAl with hS
  have hinit := initSolve_lams S st ![-3, -2] (0 : Fin 3 → ℝ)
  have hfields : (initSolve S st ![-3, -2] 3 0).rho = 0 ∧ (initSolve S st ![-3, -2] 3 0).setMu = 1 / 100 ∧
      (initSolve S st ![-3, -2] 3 0).mu = 1 / 100 ∧ (initSolve S st ![-3, -2] 3 0).innerTol = 1 / 100 ∧
      (initSolve S st ![-3, -2] 3 0).numIters = 0 ∧ (initSolve S st ![-3, -2] 3 0).alIters = 0 := by
    refine ⟨?_, ?_, ?_, ?_, ?_, ?_⟩ <;>
      simp [initSolve, updateToleranceFailure, tolerancePostUpdate, setProxParameter, setPenalty, hS, defaultSettings]
    norm_num
  obtain ⟨i1, i2, i3, i4, i5, i6⟩ := hfields
  obtain ⟨st1, k1, k2, k3, k4, k5⟩ := stall_inner C S
    { qp := hq, convex := stallQp_convex, params := by rw [hCp]; constructor <;> norm_num [defaultInertia],
      deltaInit := by rw [hCp]; rfl, deltaMax := by rw [hCp]; norm_num [defaultInertia],
      backend := hB, ret := hN C hCp hCl hf fun A => hB.entries A, beta := rfl, kkt := rfl } hCl hsq htol h3 hmax
    (startOuter (concreteCtx C) (initSolve S st ![-3, -2] 3 0)) i1 (i2.trans i3.symm) i3 hinit.2.2 hinit.1 hinit.2.1 i4 i5
  refine ⟨invokeCallbacks { setProxParameter (afterInner S st1) ((afterInner S st1).rho * S.rhoUpdateFactor) with
    alIters := (initSolve S st ![-3, -2] 3 0).alIters + 1 }, ?_, ?_, ?_⟩
  · unfold solve
    rw [if_neg (by rw [hset]; decide)]
    have hout : outerLoop (concreteCtx C) S (initSolve S st ![-3, -2] 3 0) =
        .ok { setProxParameter (afterInner S st1) ((afterInner S st1).rho * S.rhoUpdateFactor) with
          alIters := (initSolve S st ![-3, -2] 3 0).alIters + 1 } := by
      rw [outerLoop, if_pos ⟨by rw [i5]; show 0 < maxIters; omega, by rw [i6]; show 0 < maxAl; omega⟩, k1]
      simp only
      rw [if_neg (by
        rw [afterInner_prim]
        exact not_lt.2 (le_trans k3.le (le_max_left _ _)))]
      rw [outerLoop, if_neg]
      rintro ⟨hlt, -⟩
      have : (afterInner S st1).numIters < S.maxIters := hlt
      rw [afterInner_numIters, k4] at this
      exact lt_irrefl _ this
    rw [hout]
  · show (afterInner S st1).converged = _
    rw [afterInner_converged]; exact k2
  · show 1 / 6 < stallQp.residual (afterInner S st1).xOpt 0
    rw [afterInner_xOpt]; exact k5

namespace Demo

/-- the program handed to the solver with the default options -/
noncomputable def stallCfg (B : Backend ℝ 2 3) (fuel : ℕ) : StepCfg (Fin 2 → ℝ) ℝ 2 3 where
  eval x := some (stallQp.cost x, stallQp.residual x)
  grad := stallQp.gradient
  jac _ := stallQp.A
  objHess _ := stallQp.H
  cstrVhp _ _ := [(true, 0)]
  sets := StackedSet.ofLeaves fun _ => (.negOrthant, 0)
  neutral := 0
  coords x := x
  integrate x d := x + d
  proxVal rho t x := rho / 2 * ∑ j, (x j - t j) ^ 2
  proxGrad rho t x := fun j => rho * (x j - t j)
  proxHess rho _ _ := fun i j => if i = j then rho else 0
  approx := .gaussNewton
  kkt := .classic
  beta := 1 / 2
  inertia := defaultInertia
  refineTol := 1 / 10000000000
  refineSteps := 5
  ls := defaultLinesearch
  backend := B
  sqrt := Real.sqrt
  sing := fun _ _ _ _ => none
  fuel := fuel

end Demo

theorem stallCfg_isIneqQp (B : Backend ℝ 2 3) (fuel : ℕ) : IsIneqQp (stallCfg B fuel) stallQp where
  eval _ := rfl
  grad _ := rfl
  jac _ := rfl
  hess _ := rfl
  vhp := by intro x l p hp; simp only [stallCfg, List.mem_singleton] at hp; rw [hp]
  integrate _ _ := rfl
  sets := rfl
  approx := Or.inr rfl
  beta := rfl
  prox := by intro t x; simp [stallCfg]
  classic := rfl

/-- non-vacuity of `C93_default_false`: a solver that meets the hypotheses, with the dense factorisation of the library -/
example (N : ℕ) (o : DenseObj ℝ) : ∃ C : StepCfg (Fin 2 → ℝ) ℝ 2 3, IsIneqQp C stallQp ∧ C.inertia = defaultInertia ∧
    C.ls = defaultLinesearch ∧ C.sqrt = Real.sqrt ∧ N ≤ C.fuel ∧ LibraryBackend C.backend :=
  ⟨stallCfg (denseBackend 0 o) N, stallCfg_isIneqQp _ _, rfl, rfl, rfl, le_rfl, LibraryBackend.dense o⟩

/-- non-vacuity of `C93_linesearch`: the identity plus a square -/
example (sing : LSSample ℝ → LSSample ℝ → ℝ → ℝ → Option ℝ) (r : LSResult ℝ)
    (h : lsRun Real.sqrt sing (fun a => some (a + a ^ 2)) defaultLinesearch 0 1 5 = some r) : r.alpha = 1 / 1000000 := by
  have := C93_linesearch Real.sqrt sing defaultLinesearch default_halving (fun a => a + a ^ 2) 0 1 one_pos
    (by norm_num [defaultLinesearch]) (fun a h0 _ => by nlinarith) (fun a b h0 h1 _ => by nlinarith) 5 r h
  rw [this]
  exact default_lastStep

end ProxNLP
