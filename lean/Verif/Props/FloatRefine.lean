import Verif.Lemmas.FloatRefine
import Verif.Props.FloatLdlt
import Mathlib.Tactic.FinCases
import Mathlib.Algebra.Order.Archimedean.Basic

/-!
C107: iterative refinement of the KKT step in rounded arithmetic.
-/

set_option linter.unusedSectionVars false
namespace ProxNLP

open Spec

section
variable {K : Type} [Field K] [LinearOrder K] [IsStrictOrderedRing K] {N : ℕ}

/-- `true` is returned only with a step whose exact residual is below the tolerance plus the rounding error of one evaluation of the
residual, whatever the linear solver does. -/
theorem C107_sound (R : Rounding K) (t : Fin N → SumTree (Fin N)) (d c : ℕ) (ht : RowsSum t d c) (A : Fin N → Fin N → K) (rhs : Fin N → K) (tol : K)
    (solve : (Fin N → K) → Fin N → K) (maxSteps : ℕ) (s : Fin N → K) (cnt : ℕ) (h : flRefine R t A rhs tol solve maxSteps = (true, s, cnt)) :
    ∀ i, |(∑ j, A i j * s j) + rhs i| < tol + (((1 + R.u) ^ d - 1) * ((∑ j, |A i j * s j|) + |rhs i|) + c * R.eta * (1 + R.u) ^ d) := by
  have key : ∀ k s0 c0, (flRefineLoop R t A rhs tol solve k s0 c0).1 = true →
      inftyNorm (flKktErr R t A rhs (flRefineLoop R t A rhs tol solve k s0 c0).2.1) < tol := by
    intro k
    induction k with
    | zero => intro s0 c0 h; simp [flRefineLoop] at h
    | succ k ih =>
      intro s0 c0
      simp only [flRefineLoop]
      split_ifs with h
      · exact fun _ => h
      · exact ih _ _
  have h1 := key maxSteps (solve fun i => -rhs i) 1
  unfold flRefine at h
  rw [h] at h1
  intro i
  have h2 := ((inftyNorm_lt_iff _ _).1 (h1 rfl)).2 i
  have h3 := flKktErr_err R ht A rhs s i
  have h4 : |kktRow A rhs s i| ≤ |flKktErr R t A rhs s i + kktRow A rhs s i| + |flKktErr R t A rhs s i| := by
    have := abs_sub (flKktErr R t A rhs s i + kktRow A rhs s i) (flKktErr R t A rhs s i)
    simpa using this
  exact lt_of_le_of_lt h4 (by unfold kktRowAbs at h3; linarith)

/-- At most `max_refinement_steps` corrections, and `false` only after all of them. -/
theorem C107_bounded (R : Rounding K) (t : Fin N → SumTree (Fin N)) (A : Fin N → Fin N → K) (rhs : Fin N → K) (tol : K)
    (solve : (Fin N → K) → Fin N → K) (maxSteps : ℕ) (ok : Bool) (s : Fin N → K) (cnt : ℕ)
    (h : flRefine R t A rhs tol solve maxSteps = (ok, s, cnt)) : 1 ≤ cnt ∧ cnt ≤ 1 + maxSteps ∧ (ok = false → cnt = 1 + maxSteps) := by
  have key : ∀ k s0 c0, c0 ≤ (flRefineLoop R t A rhs tol solve k s0 c0).2.2 ∧ (flRefineLoop R t A rhs tol solve k s0 c0).2.2 ≤ c0 + k ∧
      ((flRefineLoop R t A rhs tol solve k s0 c0).1 = false → (flRefineLoop R t A rhs tol solve k s0 c0).2.2 = c0 + k) := by
    intro k
    induction k with
    | zero => intro s0 c0; simp [flRefineLoop]
    | succ k ih =>
      intro s0 c0
      simp only [flRefineLoop]
      split_ifs with h
      · simp
      · obtain ⟨h1, h2, h3⟩ := ih (fun i => R.rnd (s0 i + solve (flKktErr R t A rhs s0) i)) (c0 + 1)
        exact ⟨by omega, by omega, fun h => by have := h3 h; omega⟩
  have := key maxSteps (solve fun i => -rhs i) 1
  unfold flRefine at h
  rwa [h] at this

/-! ### limiting accuracy -/

/-- A linear solver with relative residual `q`: after `cnt` solves the exact residual is at most `rate ^ cnt + floor / (1 - rate)` times
the right-hand side, where `rate` and `floor` are `q` and zero up to `κ u` terms, `κ = α ν` bounding the condition number. -/
theorem C107_contracts (R : Rounding K) (hR : R.eta = 0) (t : Fin N → SumTree (Fin N)) (d c : ℕ) (ht : RowsSum t d c) (A : Fin N → Fin N → K)
    (α ν : K) (hα0 : 0 ≤ α) (hν0 : 0 ≤ ν) (hA : CondBounds A α ν) (q : K) (hq : 0 ≤ q) (rhs : Fin N → K) (tol : K)
    (solve : (Fin N → K) → Fin N → K) (hs : ∀ b : Fin N → K, (inftyNorm fun i => b i - ∑ j, A i j * solve b j) ≤ q * inftyNorm b)
    (hrate : refineRate R.u ((1 + R.u) ^ d - 1) (α * ν) q < 1) (maxSteps : ℕ) (ok : Bool) (s : Fin N → K) (cnt : ℕ)
    (h : flRefine R t A rhs tol solve maxSteps = (ok, s, cnt)) :
    (inftyNorm fun i => (∑ j, A i j * s j) + rhs i) ≤
      (refineRate R.u ((1 + R.u) ^ d - 1) (α * ν) q ^ cnt +
        refineFloor R.u ((1 + R.u) ^ d - 1) (α * ν) q / (1 - refineRate R.u ((1 + R.u) ^ d - 1) (α * ν) q)) * inftyNorm rhs := by
  have hγ : 0 ≤ (1 + R.u) ^ d - 1 := sub_nonneg.2 (one_le_G R d)
  have hκ : 0 ≤ α * ν := mul_nonneg hα0 hν0
  have hqr := refineRate_ge R.u_nonneg hγ hκ hq
  have hf0 := refineFloor_nonneg R.u_nonneg hγ hκ hq
  have hstep := fun s => (flRefine_step R hR ht hα0 hν0 hA hq rhs solve hs s).2
  have hfirst := refine_first rhs solve hs hq
  generalize refineRate R.u ((1 + R.u) ^ d - 1) (α * ν) q = r at *
  generalize refineFloor R.u ((1 + R.u) ^ d - 1) (α * ν) q = f at *
  have hr0 : 0 ≤ r := hq.trans hqr
  have h1r : 0 < 1 - r := by linarith
  have hF0 : 0 ≤ f / (1 - r) := div_nonneg hf0 h1r.le
  have hF : f / (1 - r) = r * (f / (1 - r)) + f := by field_simp; ring
  generalize f / (1 - r) = F at *
  have hb := inftyNorm_nonneg rhs
  have key : ∀ k s0 c0, inftyNorm (kktRow A rhs s0) ≤ (r ^ c0 + F) * inftyNorm rhs →
      inftyNorm (kktRow A rhs (flRefineLoop R t A rhs tol solve k s0 c0).2.1) ≤
        (r ^ (flRefineLoop R t A rhs tol solve k s0 c0).2.2 + F) * inftyNorm rhs := by
    intro k
    induction k with
    | zero => intro s0 c0 h0; simpa [flRefineLoop] using h0
    | succ k ih =>
      intro s0 c0 h0
      simp only [flRefineLoop]
      split_ifs with h
      · exact h0
      · refine ih _ _ ((hstep s0).trans ?_)
        have h1 := mul_le_mul_of_nonneg_left h0 hr0
        have e : (r ^ (c0 + 1) + F) * inftyNorm rhs = r * ((r ^ c0 + F) * inftyNorm rhs) + f * inftyNorm rhs := by
          conv_lhs => rw [hF]
          ring
        rw [e]
        linarith
  have h1 := key maxSteps (solve fun i => -rhs i) 1 (hfirst.trans (mul_le_mul_of_nonneg_right (by rw [pow_one]; linarith) hb))
  unfold flRefine at h
  rw [h] at h1
  exact h1

/-- With such a solver the refinement succeeds when enough corrections are allowed and the tolerance is above the limiting accuracy. -/
theorem C107_converges [Archimedean K] (R : Rounding K) (hR : R.eta = 0) (t : Fin N → SumTree (Fin N)) (d c : ℕ) (ht : RowsSum t d c)
    (A : Fin N → Fin N → K) (α ν : K) (hα0 : 0 ≤ α) (hν0 : 0 ≤ ν) (hA : CondBounds A α ν) (q : K) (hq : 0 ≤ q) (rhs : Fin N → K) (tol : K)
    (solve : (Fin N → K) → Fin N → K) (hs : ∀ b : Fin N → K, (inftyNorm fun i => b i - ∑ j, A i j * solve b j) ≤ q * inftyNorm b)
    (hrate : refineRate R.u ((1 + R.u) ^ d - 1) (α * ν) q < 1)
    (htol : ((1 + ((1 + R.u) ^ d - 1) * (α * ν)) * (refineFloor R.u ((1 + R.u) ^ d - 1) (α * ν) q /
      (1 - refineRate R.u ((1 + R.u) ^ d - 1) (α * ν) q)) + ((1 + R.u) ^ d - 1) * (1 + α * ν)) * inftyNorm rhs < tol) :
    ∃ M, ∀ maxSteps ≥ M, ∃ s cnt, flRefine R t A rhs tol solve maxSteps = (true, s, cnt) := by
  have hγ : 0 ≤ (1 + R.u) ^ d - 1 := sub_nonneg.2 (one_le_G R d)
  have hκ : 0 ≤ α * ν := mul_nonneg hα0 hν0
  have hqr := refineRate_ge R.u_nonneg hγ hκ hq
  have hf0 := refineFloor_nonneg R.u_nonneg hγ hκ hq
  have hstep := fun s => flRefine_step R hR ht hα0 hν0 hA hq rhs solve hs s
  have hfirst := refine_first rhs solve hs hq
  generalize refineRate R.u ((1 + R.u) ^ d - 1) (α * ν) q = r at *
  generalize refineFloor R.u ((1 + R.u) ^ d - 1) (α * ν) q = f at *
  generalize (1 + R.u) ^ d - 1 = γ at *
  generalize α * ν = κ at *
  have hr0 : 0 ≤ r := hq.trans hqr
  have h1r : 0 < 1 - r := by linarith
  have hF0 : 0 ≤ f / (1 - r) := div_nonneg hf0 h1r.le
  have hF : f / (1 - r) = r * (f / (1 - r)) + f := by field_simp; ring
  generalize f / (1 - r) = F at *
  have hb := inftyNorm_nonneg rhs
  generalize inftyNorm rhs = β at *
  have hγκ : 0 ≤ 1 + γ * κ := by positivity
  obtain ⟨M, hM⟩ : ∃ M : ℕ, r ^ M * ((1 + γ * κ) * β) < tol - ((1 + γ * κ) * F + γ * (1 + κ)) * β := by
    have hpos : 0 < tol - ((1 + γ * κ) * F + γ * (1 + κ)) * β := by linarith
    rcases (mul_nonneg hγκ hb).lt_or_eq with h | h
    · obtain ⟨M, hM⟩ := exists_pow_lt_of_lt_one (div_pos hpos h) hrate
      exact ⟨M, by rwa [lt_div_iff₀ h] at hM⟩
    · exact ⟨0, by rw [← h, mul_zero]; exact hpos⟩
  have key : ∀ k s0 c0, inftyNorm (kktRow A rhs s0) ≤ (r ^ c0 + F) * β → M < c0 + k → 0 < k →
      (flRefineLoop R t A rhs tol solve k s0 c0).1 = true := by
    intro k
    induction k with
    | zero => intro s0 c0 _ _ h; exact absurd h (lt_irrefl _)
    | succ k ih =>
      intro s0 c0 h0 hMc _
      simp only [flRefineLoop]
      split_ifs with h
      · rfl
      · have hlt : c0 < M := by
          by_contra hcon
          push Not at hcon
          apply h
          refine lt_of_le_of_lt (hstep s0).1 ?_
          have h1 := mul_le_mul_of_nonneg_left h0 hγκ
          have h2 := mul_le_mul_of_nonneg_right (pow_le_pow_of_le_one hr0 hrate.le hcon) (mul_nonneg hγκ hb)
          have e : (1 + γ * κ) * ((r ^ c0 + F) * β) = r ^ c0 * ((1 + γ * κ) * β) + (1 + γ * κ) * F * β := by ring
          linarith
        refine ih _ _ ((hstep s0).2.trans ?_) (by omega) (by omega)
        have h1 := mul_le_mul_of_nonneg_left h0 hr0
        have e : (r ^ (c0 + 1) + F) * β = r * ((r ^ c0 + F) * β) + f * β := by
          conv_lhs => rw [hF]
          ring
        rw [e]
        linarith
  refine ⟨M + 1, fun maxSteps hmax => ⟨_, _, Prod.ext ?_ rfl⟩⟩
  refine key maxSteps _ 1 (hfirst.trans (mul_le_mul_of_nonneg_right (by rw [pow_one]; linarith) hb)) (by omega) (by omega)

/-- The dense factorisation of C105 is such a solver: `Λ` bounds the row sums of `|L| |D| |Lᵀ|` of the computed factors. -/
theorem C107_dense_solver (R : Rounding K) (hR : R.eta = 0) (o : LdltOrders) (d l : ℕ) (ho : OrdersSum o N d) (hn : N ≤ 128 * 2 ^ l)
    (hsm : 8 * (((d + 2) * l + d + 4 : ℕ) * R.u) ≤ 1) (A : ℕ → ℕ → K) (tiny : K) (htiny : 0 ≤ tiny)
    (hp : ∀ k < N, tiny < |flDenseLdlt R o 0 N A k k|) (α ν Λ : K) (hν0 : 0 ≤ ν)
    (hA : CondBounds (fun i j : Fin N => matCoeff A i j) α ν) (hΛ : ∀ i < N, ∑ j ∈ Finset.range N, absLdl N (flDenseLdlt R o 0 N A) i j ≤ Λ)
    (hΛ0 : 0 ≤ Λ) (hω : 12 * (((d + 2) * l + d + 4 : ℕ) * R.u) * Λ * ν < 1) (b : Fin N → K) :
    (inftyNorm fun i : Fin N => b i - ∑ j : Fin N, matCoeff A i j *
        flDenseSolve R o tiny N (flDenseLdlt R o 0 N A) (fun k => if h : k < N then b ⟨k, h⟩ else 0) j) ≤
      12 * (((d + 2) * l + d + 4 : ℕ) * R.u) * Λ * ν / (1 - 12 * (((d + 2) * l + d + 4 : ℕ) * R.u) * Λ * ν) * inftyNorm b := by
  have hres := C105_residual R hR o N d l ho hn hsm A (fun k => if h : k < N then b ⟨k, h⟩ else 0) tiny htiny hp
  generalize hx : flDenseSolve R o tiny N (flDenseLdlt R o 0 N A) (fun k => if h : k < N then b ⟨k, h⟩ else 0) = x at *
  generalize flDenseLdlt R o 0 N A = M at *
  have hm : (0 : K) ≤ 12 * ((((d + 2) * l + d + 4 : ℕ) : K) * R.u) := mul_nonneg (by norm_num) (mul_nonneg (Nat.cast_nonneg _) R.u_nonneg)
  generalize (12 : K) * ((((d + 2) * l + d + 4 : ℕ) : K) * R.u) = w at *
  have hb := inftyNorm_nonneg b
  have hX := inftyNorm_nonneg fun j : Fin N => x j
  -- the residual in terms of `x`
  have h1 : (inftyNorm fun i : Fin N => b i - ∑ j : Fin N, matCoeff A i j * x j) ≤ w * Λ * inftyNorm fun j : Fin N => x j := by
    refine inftyNorm_le_of (by positivity) fun i => ?_
    have h2 := hres i i.2
    rw [dif_pos i.2, Finset.sum_range, Finset.sum_range] at h2
    refine h2.trans ?_
    rw [mul_assoc]
    refine mul_le_mul_of_nonneg_left ?_ hm
    refine le_trans (Finset.sum_le_sum fun j _ => mul_le_mul_of_nonneg_left (abs_le_inftyNorm (fun j : Fin N => x j) j) ?_) ?_
    · exact Finset.sum_nonneg fun _ _ => by positivity
    · rw [← Finset.sum_mul]
      refine mul_le_mul_of_nonneg_right ?_ hX
      have := hΛ i i.2
      rwa [Finset.sum_range] at this
  have h3 := hA.inv fun j : Fin N => x j
  have h4 : (inftyNorm fun i : Fin N => ∑ j : Fin N, matCoeff A i j * x j) ≤
      inftyNorm b + inftyNorm fun i : Fin N => b i - ∑ j : Fin N, matCoeff A i j * x j := by
    refine inftyNorm_le_of (add_nonneg hb (inftyNorm_nonneg _)) fun i => ?_
    have e : ∑ j : Fin N, matCoeff A i j * x j = b i - (b i - ∑ j : Fin N, matCoeff A i j * x j) := by ring
    rw [e]
    exact (abs_sub _ _).trans (add_le_add (abs_le_inftyNorm b i) (abs_le_inftyNorm (fun i : Fin N => b i - ∑ j : Fin N, matCoeff A i j * x j) i))
  generalize (inftyNorm fun i : Fin N => b i - ∑ j : Fin N, matCoeff A i j * x j) = ρ at *
  have h5 : ρ ≤ w * Λ * ν * (inftyNorm b + ρ) := by
    refine h1.trans ?_
    have := mul_le_mul_of_nonneg_left (h3.trans (mul_le_mul_of_nonneg_left h4 hν0)) (mul_nonneg hm hΛ0)
    linarith
  rw [div_mul_eq_mul_div, le_div_iff₀ (by linarith)]
  linarith

end

namespace Demo

/-- the residual of a system of one equation: the product is rounded, then the sum -/
def oneRow : Fin 1 → SumTree (Fin 1) := fun _ => .add .init (.prod 0)

/-- division by the pivot 3, rounded -/
def thirdSolve (R : Rounding ℚ) : (Fin 1 → ℚ) → Fin 1 → ℚ := fun b i => R.rnd (b i / 3)

end Demo

theorem oneRow_sum : RowsSum Demo.oneRow 2 2 := by
  intro i
  fin_cases i
  exact ⟨by decide, by decide, by decide⟩

theorem inftyNorm_one (z : Fin 1 → ℚ) : inftyNorm z = |z 0| := by
  apply le_antisymm
  · exact inftyNorm_le_of (abs_nonneg _) fun i => by rw [Subsingleton.elim i 0]
  · exact abs_le_inftyNorm z 0

theorem thirdSolve_rel (R : Rounding ℚ) (hR : R.eta = 0) (b : Fin 1 → ℚ) :
    (inftyNorm fun i => b i - ∑ j : Fin 1, (3 : ℚ) * Demo.thirdSolve R b j) ≤ R.u * inftyNorm b := by
  rw [inftyNorm_one, inftyNorm_one]
  have h := R.err (b 0 / 3)
  rw [hR, add_zero, abs_div, abs_of_pos (by norm_num : (0 : ℚ) < 3)] at h
  simp only [Finset.univ_unique, Fin.default_eq_zero, Finset.sum_singleton, Demo.thirdSolve]
  have e : b 0 - 3 * R.rnd (b 0 / 3) = -3 * (R.rnd (b 0 / 3) - b 0 / 3) := by ring
  rw [e, abs_mul]
  norm_num
  linarith

/-- the hypotheses of the convergence theorem are met in 53-bit arithmetic: `3 x = 1`, solved by a rounded division -/
example : ∃ M, ∀ maxSteps ≥ M, ∃ s cnt, flRefine (bitsRounding 53 (by norm_num)) Demo.oneRow (fun _ _ => 3) (fun _ => -1) (1 / 10 ^ 13)
    (Demo.thirdSolve (bitsRounding 53 (by norm_num))) maxSteps = (true, s, cnt) := by
  refine C107_converges (bitsRounding 53 (by norm_num)) rfl Demo.oneRow 2 2 oneRow_sum (fun _ _ => 3) 3 (1 / 3) (by norm_num) (by norm_num)
    ⟨fun i => by simp, fun v => ?_⟩ ((1 / 2) ^ 53) (by positivity) _ _ _ (fun b => thirdSolve_rel _ rfl b) ?_ ?_
  · rw [inftyNorm_one, inftyNorm_one]
    simp [abs_mul]
  · simp only [refineRate, bitsRounding]; norm_num
  · rw [inftyNorm_one]
    simp only [refineRate, refineFloor, bitsRounding]; norm_num

/-- The tolerance is absolute: in double precision the refinement of `3 x = 2^60` returns `true` with the default tolerance although the
exact residual is at least 1. -/
theorem C107_absolute_false :
    ∃ s, flRefine binary64 Demo.oneRow (fun _ _ => 3) (fun _ => -2 ^ 60) (1 / 10 ^ 13) (Demo.thirdSolve binary64) 5 = (true, s, 1) ∧
      1 ≤ |∑ j : Fin 1, 3 * s j + -2 ^ 60| := by
  have key : (fun r : Bool × (Fin 1 → ℚ) × ℕ => (r.1, r.2.2, decide (1 ≤ |3 * r.2.1 0 + -2 ^ 60|)))
      (flRefine binary64 Demo.oneRow (fun _ _ => 3) (fun _ => -2 ^ 60) (1 / 10 ^ 13) (Demo.thirdSolve binary64) 5) = (true, 1, true) := by
    decide +kernel
  simp only [Prod.mk.injEq, decide_eq_true_eq] at key
  refine ⟨_, Prod.ext key.1 (Prod.ext rfl key.2.1), ?_⟩
  simpa using key.2.2

/-- the hypotheses on the dense factorisation are met: the KKT matrix `[2 1; 1 -1]` in 53-bit arithmetic -/
example : ∃ q : ℚ, q < 1 / 10 ^ 10 ∧ ∀ b : Fin 2 → ℚ,
    let R := bitsRounding 53 (by norm_num)
    let A : ℕ → ℕ → ℚ := fun i j => if i = 0 then 2 else if j = 0 then 1 else -1
    (inftyNorm fun i : Fin 2 => b i - ∑ j : Fin 2, matCoeff A i j *
      flDenseSolve R (Demo.seqOrders 2) 0 2 (flDenseLdlt R (Demo.seqOrders 2) 0 2 A) (fun k => if h : k < 2 then b ⟨k, h⟩ else 0) j) ≤ q * inftyNorm b := by
  have hM : flDenseLdlt (bitsRounding 53 (by norm_num)) (Demo.seqOrders 2) 0 2 (fun i j => if i = 0 then 2 else if j = 0 then 1 else -1) =
      flLdltUnblocked (bitsRounding 53 (by norm_num)) (Demo.seqOrders 2) 0 2 (fun i j => if i = 0 then 2 else if j = 0 then 1 else -1) := by
    rw [flDenseLdlt, dif_pos (by norm_num)]
  have hu : (bitsRounding 53 (by norm_num)).u = (1 / 2) ^ 53 := rfl
  refine ⟨_, ?_, fun b => C107_dense_solver (bitsRounding 53 (by norm_num)) rfl (Demo.seqOrders 2) 2 0 (C105_sequential 2) (by norm_num) ?_
    _ 0 le_rfl ?_ 3 1 4 (by norm_num) ⟨?_, ?_⟩ ?_ (by norm_num) ?_ b⟩
  · rw [hu]; norm_num
  · rw [hu]; norm_num
  · rw [hM]; decide +kernel
  · decide +kernel
  · intro v
    set w : Fin 2 → ℚ := fun i => ∑ j : Fin 2, matCoeff (fun i j => if i = 0 then (2 : ℚ) else if j = 0 then 1 else -1) i j * v j with hw
    have e0 : w 0 = 2 * v 0 + v 1 := by simp [hw, Fin.sum_univ_succ, matCoeff]
    have e1 : w 1 = v 0 - v 1 := by simp [hw, Fin.sum_univ_succ, matCoeff]; ring
    have h0 := abs_le.1 (abs_le_inftyNorm w 0)
    have h1 := abs_le.1 (abs_le_inftyNorm w 1)
    rw [one_mul]
    refine inftyNorm_le_of (inftyNorm_nonneg _) fun i => ?_
    rw [e0] at h0
    rw [e1] at h1
    fin_cases i
    · exact abs_le.2 ⟨by simp only [Fin.zero_eta]; linarith, by simp only [Fin.zero_eta]; linarith⟩
    · exact abs_le.2 ⟨by simp only [Fin.mk_one]; linarith, by simp only [Fin.mk_one]; linarith⟩
  · rw [hM]; decide +kernel
  · rw [hu]; norm_num

end ProxNLP
