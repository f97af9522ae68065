import Verif.Props.FloatBk
import Verif.Lemmas.BkGrowth

/-! Property theorems for C124 (growth of the entries in the Bunch-Kaufman factorisation). -/

set_option linter.unusedSectionVars false
namespace ProxNLP

open Spec
open Relation (ReflTransGen)

variable {K : Type} [Field K] [LinearOrder K] [IsStrictOrderedRing K]

/-- **C124**: after a successful `compute(A)` the object holds a factorisation of the symmetric matrix `A` in which the off-diagonal
entry of every 2x2 block dominates, every entry of `D` in column `k` is at most `(1 + 1 / alpha)^k` times the largest entry of `A`, and the
entries of `|L| |D| |Lᵀ|` are bounded by the largest entry of `A` times a constant that depends on the size only.
Whatever the size of the matrix and of the blocks. -/
theorem C124_growth (alpha : K) (h0 : 0 < alpha) (h1 : alpha < 1) (h2 : 4 * alpha ^ 2 ≤ alpha + 1) (o : BkObj K) (n : ℕ) (A : ℕ → ℕ → K)
    (bs : ℕ) (hbs : 2 ≤ bs) (r : BkObj K) (hr : BkObj.compute alpha o n A bs = some r) (hi : r.info = some true) :
    ∃ D, HoldsFactors r (matCoeff A) D ∧
      (∀ c < n, twoAt r.piv c = true → |D c c * D (c + 1) (c + 1)| ≤ alpha ^ 2 * D (c + 1) c ^ 2) ∧
      (∀ m, (∀ i < n, ∀ j < n, |matCoeff A i j| ≤ m) → ∀ i < n, ∀ j < n, |D i j| ≤ (1 + 1 / alpha) ^ min i j * m) ∧
      ∀ C m, 1 ≤ C * alpha → 2 * (1 + alpha) ≤ C * (1 - alpha) ^ 2 → (∀ i < n, ∀ j < n, |matCoeff A i j| ≤ m) →
        ∀ i < n, ∀ j < n, absBk r D i j ≤ C * m * ∑ k ∈ Finset.range n, (1 + 1 / alpha) ^ k := by
  obtain ⟨M, T, D, hc, hD, rfl, hp, hL, hf, hv⟩ := bkCompute_holds alpha h0 h1 o n A bs hbs r hr hi
  obtain ⟨g1, g2⟩ := chain_growth hc rfl trivial h0 h1 D hD
  refine ⟨D, ⟨hp, hf, hv⟩, fun c hc ht => g1 c (Nat.zero_le _) hc ht, fun m hm i hi j hj => ?_, fun C m hC1 hC2 hm i hi j hj => ?_⟩
  swap
  · have g4 := chain_absBk hc rfl (matCoeff_sym A 0 r.n) trivial h0 h1 h2 D hD hC1 hC2 m (fun i j _ hi _ hj => hm i hi j hj) i j
      (Nat.zero_le _) hi (Nat.zero_le _) hj
    simp only [Nat.Ico_zero_eq_range, Nat.sub_zero] at g4
    refine le_trans (le_of_eq ?_) g4
    unfold absBk
    refine Finset.sum_congr rfl fun c hc => Finset.sum_congr rfl fun c' hc' => ?_
    rw [hL i c (Finset.mem_range.1 hc), hL j c' (Finset.mem_range.1 hc')]
  have g3 := g2 h2 m fun i j _ hi _ hj => hm i hi j hj
  rcases le_total i j with h | h
  · rw [min_eq_left h]
    exact g3 i j (Nat.zero_le _) h hj
  · rw [min_eq_right h, hD.sym i j (Nat.zero_le _) hi (Nat.zero_le _) hj]
    exact g3 j i (Nat.zero_le _) h hi

/-- the constant of the code satisfies the conditions -/
theorem bkAlpha_sq : 4 * ((1 + Real.sqrt 17) / 8) ^ 2 = (1 + Real.sqrt 17) / 8 + 1 := by
  have := Real.sq_sqrt (show (0 : ℝ) ≤ 17 by norm_num)
  linear_combination this / 16

theorem bkAlpha_inv : 1 + 1 / ((1 + Real.sqrt 17) / 8) = (1 + Real.sqrt 17) / 2 := by
  have := Real.sq_sqrt (show (0 : ℝ) ≤ 17 by norm_num)
  have h : (1 + Real.sqrt 17) ≠ 0 := by positivity
  field_simp
  linear_combination -this

theorem bkAlpha_dom : 7 * ((1 + Real.sqrt 17) / 8) ^ 2 ≤ 3 := by
  have h := bkAlpha_sq
  have h2 : Real.sqrt 17 ≤ 33 / 8 := by
    rw [Real.sqrt_le_left (by norm_num)]; norm_num
  linarith

theorem bkAlpha_C : 1 ≤ 26 * ((1 + Real.sqrt 17) / 8) ∧ 2 * (1 + (1 + Real.sqrt 17) / 8) ≤ 26 * (1 - (1 + Real.sqrt 17) / 8) ^ 2 := by
  have h := bkAlpha_sq
  have h1 : 4 ≤ Real.sqrt 17 := Real.le_sqrt_of_sq_le (by norm_num)
  have h2 : Real.sqrt 17 ≤ 4124 / 1000 := by
    rw [Real.sqrt_le_left (by norm_num)]; norm_num
  constructor
  · linarith
  · nlinarith

/-- **C124** for the constant and the block size of the code, over the reals: the object can be used in the rounded solve of C123, and
the entries of `D` grow by at most the factor `(1 + sqrt 17) / 2 < 2.57` per column. -/
theorem C124_growth_code (o : BkObj ℝ) (n : ℕ) (A : ℕ → ℕ → ℝ) (r : BkObj ℝ) (hr : BkObj.compute ((1 + Real.sqrt 17) / 8) o n A = some r)
    (hi : r.info = some true) :
    ∃ D, HoldsFactors r (matCoeff A) D ∧ DominantBlocks r D ∧
      (∀ m, (∀ i < n, ∀ j < n, |matCoeff A i j| ≤ m) → ∀ i < n, ∀ j < n, |D i j| ≤ ((1 + Real.sqrt 17) / 2) ^ min i j * m) ∧
      ∀ m, (∀ i < n, ∀ j < n, |matCoeff A i j| ≤ m) → ∀ i < n, ∀ j < n,
        absBk r D i j ≤ 26 * m * ∑ k ∈ Finset.range n, ((1 + Real.sqrt 17) / 2) ^ k := by
  obtain ⟨r', e1, e2, -⟩ := C58_compute_total _ bkAlpha_mem.1 bkAlpha_mem.2 o n A 32 (by omega)
  rw [hr] at e1
  obtain rfl := Option.some.inj e1
  obtain ⟨D, g1, g2, g3, g4⟩ := C124_growth _ bkAlpha_mem.1 bkAlpha_mem.2 bkAlpha_sq.le o n A 32 (by omega) r hr hi
  rw [bkAlpha_inv] at g3 g4
  refine ⟨D, g1, fun c hc ht => ?_, g3, fun m hm i hi j hj => g4 26 m bkAlpha_C.1 bkAlpha_C.2 hm i hi j hj⟩
  have h1 := g2 c (by omega) ht
  have h2 := mul_le_mul_of_nonneg_right bkAlpha_dom (sq_nonneg (D (c + 1) c))
  linarith

/-- **C124**: hence the rounded solve with the factors of every nonsingular matrix has a small residual relative to `|L| |D| |Lᵀ|`. -/
theorem C124_rounded_solve (o : BkObj ℝ) (n : ℕ) (A : ℕ → ℕ → ℝ) (hA : (toMat n (matCoeff A)).det ≠ 0) (R : Rounding ℝ) (hR : R.eta = 0)
    (q : BkOrders) (d : ℕ) (hq : BkOrdersSum q n d) (hs : 50 * (d * R.u) ≤ 1) (b : ℕ → ℝ) :
    ∃ r D, BkObj.compute ((1 + Real.sqrt 17) / 8) o n A = some r ∧ HoldsFactors r (matCoeff A) D ∧
      ∀ i < n, |b (travPerm n r.piv 0 i) - ∑ j ∈ Finset.range n, matCoeff A (travPerm n r.piv 0 i) j * r.flSolve R q b j| ≤
        12 * (d * R.u) * ∑ j ∈ Finset.range n, absBk r D i j * |r.flSolve R q b (travPerm n r.piv 0 j)| := by
  obtain ⟨r, e1, e2, -⟩ := C58_compute_total _ bkAlpha_mem.1 bkAlpha_mem.2 o n A 32 (by omega)
  have hi := (C58_success_iff _ bkAlpha_mem.1 bkAlpha_mem.2 o n A 32 (by omega) r e1).2 hA
  obtain ⟨D, g1, g2, -⟩ := C124_growth_code o n A r e1 hi
  subst e2
  exact ⟨r, D, e1, g1, C123_residual R hR q d r hq hs _ D g1 g2 b⟩

/-- **C124**, in terms of the matrix and the solution only: with the factors of a nonsingular symmetric matrix with entries of size at
most `m`, the rounded solve leaves a residual of at most `12 C d u c(n) m (|x 0| + … + |x (n - 1)|)` in every row, where `c(n)` depends on
the size alone. -/
theorem C124_residual (alpha : K) (h0 : 0 < alpha) (h1 : alpha < 1) (h2 : 4 * alpha ^ 2 ≤ alpha + 1) (h3 : 7 * alpha ^ 2 ≤ 3) (C : K)
    (hC1 : 1 ≤ C * alpha) (hC2 : 2 * (1 + alpha) ≤ C * (1 - alpha) ^ 2) (o : BkObj K) (n : ℕ) (A : ℕ → ℕ → K) (bs : ℕ) (hbs : 2 ≤ bs)
    (hA : (toMat n (matCoeff A)).det ≠ 0) (m : K) (hm : ∀ i < n, ∀ j < n, |matCoeff A i j| ≤ m) (R : Rounding K) (hR : R.eta = 0)
    (q : BkOrders) (d : ℕ) (hq : BkOrdersSum q n d) (hs : 50 * (d * R.u) ≤ 1) (b : ℕ → K) :
    ∃ r, BkObj.compute alpha o n A bs = some r ∧
      ∀ i < n, |b i - ∑ j ∈ Finset.range n, matCoeff A i j * r.flSolve R q b j| ≤
        12 * C * (d * R.u) * (∑ k ∈ Finset.range n, (1 + 1 / alpha) ^ k) * m * ∑ j ∈ Finset.range n, |r.flSolve R q b j| := by
  obtain ⟨r, e1, e2, -⟩ := C58_compute_total alpha h0 h1 o n A bs hbs
  have hi := (C58_success_iff alpha h0 h1 o n A bs hbs r e1).2 hA
  obtain ⟨D, g1, g2, -, g4⟩ := C124_growth alpha h0 h1 h2 o n A bs hbs r e1 hi
  subst e2
  have hd : DominantBlocks r D := by
    intro c hc ht
    have h4 := g2 c (by omega) ht
    have h5 := mul_le_mul_of_nonneg_right h3 (sq_nonneg (D (c + 1) c))
    linarith
  refine ⟨r, e1, fun i hi => ?_⟩
  have hpi := travPerm_inv_mem g1.pivots i hi
  have main := C123_residual R hR q d r hq hs _ D g1 hd b ((travPerm r.n r.piv 0)⁻¹ i) hpi
  rw [show travPerm r.n r.piv 0 ((travPerm r.n r.piv 0)⁻¹ i) = i by simp] at main
  have hre : ∑ j ∈ Finset.range r.n, |r.flSolve R q b (travPerm r.n r.piv 0 j)| = ∑ j ∈ Finset.range r.n, |r.flSolve R q b j| := by
    refine Finset.sum_bij' (fun j _ => travPerm r.n r.piv 0 j) (fun j _ => (travPerm r.n r.piv 0)⁻¹ j) ?_ ?_ ?_ ?_ ?_
    · exact fun j hj => Finset.mem_range.2 (g1.factor.perm_lt j (Finset.mem_range.1 hj))
    · exact fun j hj => Finset.mem_range.2 (travPerm_inv_mem g1.pivots j (Finset.mem_range.1 hj))
    · intro j _; simp
    · intro j _; simp
    · intro j _; rfl
  refine main.trans ?_
  have hdu : 0 ≤ (d : K) * R.u := mul_nonneg (Nat.cast_nonneg _) R.u_nonneg
  have hsum : ∑ j ∈ Finset.range r.n, absBk r D ((travPerm r.n r.piv 0)⁻¹ i) j * |r.flSolve R q b (travPerm r.n r.piv 0 j)| ≤
      (C * m * ∑ k ∈ Finset.range r.n, (1 + 1 / alpha) ^ k) * ∑ j ∈ Finset.range r.n, |r.flSolve R q b j| := by
    rw [← hre, Finset.mul_sum]
    exact Finset.sum_le_sum fun j hj => mul_le_mul_of_nonneg_right (g4 C m hC1 hC2 hm _ hpi j (Finset.mem_range.1 hj)) (abs_nonneg _)
  have := mul_le_mul_of_nonneg_left hsum (mul_nonneg (by norm_num : (0 : K) ≤ 12) hdu)
  linarith

/-- **C124** with the constants of the code -/
theorem C124_residual_code (o : BkObj ℝ) (n : ℕ) (A : ℕ → ℕ → ℝ) (hA : (toMat n (matCoeff A)).det ≠ 0) (m : ℝ)
    (hm : ∀ i < n, ∀ j < n, |matCoeff A i j| ≤ m) (R : Rounding ℝ) (hR : R.eta = 0)
    (q : BkOrders) (d : ℕ) (hq : BkOrdersSum q n d) (hs : 50 * (d * R.u) ≤ 1) (b : ℕ → ℝ) :
    ∃ r, BkObj.compute ((1 + Real.sqrt 17) / 8) o n A = some r ∧
      ∀ i < n, |b i - ∑ j ∈ Finset.range n, matCoeff A i j * r.flSolve R q b j| ≤
        312 * (d * R.u) * (∑ k ∈ Finset.range n, ((1 + Real.sqrt 17) / 2) ^ k) * m * ∑ j ∈ Finset.range n, |r.flSolve R q b j| := by
  obtain ⟨r, h1, h2⟩ := C124_residual _ bkAlpha_mem.1 bkAlpha_mem.2 bkAlpha_sq.le bkAlpha_dom 26 bkAlpha_C.1 bkAlpha_C.2 o n A 32
    (by omega) hA m hm R hR q d hq hs b
  rw [bkAlpha_inv, show (12 : ℝ) * 26 = 312 by norm_num] at h2
  exact ⟨r, h1, h2⟩

/-- for doubles without underflow and a matrix that needs a 2x2 pivot and an interchange -/
example (b : ℕ → ℚ) : ∃ r, BkObj.compute (16 / 25) (BkObj.init 0) 3 Demo.bkA = some r ∧
    ∀ i < 3, |b i - ∑ j ∈ Finset.range 3, matCoeff Demo.bkA i j * r.flSolve (bitsRounding 53 (by norm_num)) Demo.bkSeq b j| ≤
      12 * 26 * ((2 : ℕ) * (1 / 2) ^ 53) * (∑ k ∈ Finset.range 3, (1 + 1 / (16 / 25)) ^ k) * 3 *
        ∑ j ∈ Finset.range 3, |r.flSolve (bitsRounding 53 (by norm_num)) Demo.bkSeq b j| := by
  obtain ⟨r, h1, h2, -⟩ := Demo.bkA_run
  have hA := (C58_success_iff (16 / 25) (by norm_num) (by norm_num) (BkObj.init 0) 3 Demo.bkA 32 (by omega) r h1).1 h2
  exact C124_residual (16 / 25) (by norm_num) (by norm_num) (by norm_num) (by norm_num) 26 (by norm_num) (by norm_num) (BkObj.init 0) 3
    Demo.bkA 32 (by omega) hA 3 (by decide +kernel) (bitsRounding 53 (by norm_num)) rfl Demo.bkSeq 2 Demo.bkSeq_sum
    (by show 50 * (((2 : ℕ) : ℚ) * (1 / 2) ^ 53) ≤ 1; norm_num) b

namespace Demo

/-- `[[16/25, 1], [1, -1]]` -/
def bkGrow : ℕ → ℕ → ℚ := fun i j => if i = 0 ∧ j = 0 then 16 / 25 else if i = 1 ∧ j = 1 then -1 else 1

end Demo

/-- **C124**: the factor `1 + 1 / alpha` is attained: entries of size at most 1, and an entry `1 + 1 / alpha` in every `D` the object
stands for. -/
theorem C124_growth_attained : ∃ r, BkObj.compute (16 / 25) (BkObj.init 0) 2 Demo.bkGrow = some r ∧ r.info = some true ∧
    (∀ i < 2, ∀ j < 2, |matCoeff Demo.bkGrow i j| ≤ 1) ∧
    ∀ D, HoldsFactors r (matCoeff Demo.bkGrow) D → |D 1 1| = 1 + 1 / (16 / 25) := by
  have hrun : ∃ r, BkObj.compute (16 / 25) (BkObj.init 0) 2 Demo.bkGrow = some r ∧ r.info = some true ∧ r.n = 2 ∧
      storedBlocks r 0 1 = 0 ∧ storedBlocks r 1 1 = -16 / 41 := by
    refine exists_of_check _ _ ?_; decide +kernel
  obtain ⟨r, h1, h2, h3, h4, h5⟩ := hrun
  refine ⟨r, h1, h2, by decide +kernel, fun D hD => ?_⟩
  have := hD.inverse 1 (by omega) 1 (by omega)
  rw [h3, Finset.sum_range_succ, Finset.sum_range_one, h4, h5, if_pos rfl] at this
  have e : D 1 1 = -41 / 16 := by linarith
  rw [e]
  norm_num [abs_of_neg]

/-- the hypotheses are met by a matrix that needs a 2x2 pivot and an interchange -/
example : ∃ r D, BkObj.compute (16 / 25) (BkObj.init 0) 3 Demo.bkA = some r ∧ r.piv 0 = -3 ∧ HoldsFactors r (matCoeff Demo.bkA) D ∧
    ∀ i < 3, ∀ j < 3, |D i j| ≤ (1 + 1 / (16 / 25)) ^ min i j * 3 := by
  obtain ⟨r, h1, h2, h3, -⟩ := Demo.bkA_run
  obtain ⟨D, g1, -, g3, -⟩ := C124_growth (16 / 25) (by norm_num) (by norm_num) (by norm_num) (BkObj.init 0) 3 Demo.bkA 32 (by omega) r h1 h2
  exact ⟨r, D, h1, h3, g1, g3 3 (by decide +kernel)⟩

end ProxNLP
