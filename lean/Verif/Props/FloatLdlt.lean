import Verif.Lemmas.FloatLdltBlock
import Mathlib.Tactic.IntervalCases

/-!
C105: backward error of the dense LDLT factorisation and solve in rounded arithmetic, without underflow.

`d` bounds the number of roundings a term of a sum goes through (`n` for sums accumulated one term after the other, less for
tree-like ones) and `l` the depth of the recursion, `n ≤ 128 · 2^l`.
-/

set_option linter.unusedSectionVars false
namespace ProxNLP

open Spec

section
variable {K : Type} [Field K] [LinearOrder K] [IsStrictOrderedRing K]

/-- The computed factors reproduce the matrix, entry by entry, up to rounding errors relative to `|L| |D| |Lᵀ|`. -/
theorem C105_factors (R : Rounding K) (hR : R.eta = 0) (q : LdltOrders) (n d l : ℕ) (hq : OrdersSum q n d) (hn : n ≤ 128 * 2 ^ l)
    (hs : 8 * (((d + 2) * l + d + 4 : ℕ) * R.u) ≤ 1) (A : ℕ → ℕ → K)
    (hp : ∀ k, k + 1 < n → flDenseLdlt R q 0 n A k k ≠ 0) :
    ∀ i < n, ∀ j < n, |matCoeff A i j - prodLdl n (flDenseLdlt R q 0 n A) i j| ≤
      3 * (((d + 2) * l + d + 4 : ℕ) * R.u) * absLdl n (flDenseLdlt R q 0 n A) i j := by
  intro i hi j hj
  obtain ⟨h1, h2⟩ := vpow_small R hs
  refine ((flDenseLdlt_near R hR q hq l 0 n A le_rfl hn hp).entries (one_le_vpow R _) h1 i hi j hj).trans ?_
  refine mul_le_mul_of_nonneg_right ?_ (Finset.sum_nonneg fun _ _ => by positivity)
  have : (0 : K) ≤ (((d + 2) * l + d + 4 : ℕ) : K) * R.u := mul_nonneg (Nat.cast_nonneg _) R.u_nonneg
  linarith

/-- The computed solution solves the given system up to rounding errors relative to `|L| |D| |Lᵀ| |x|`. -/
theorem C105_residual (R : Rounding K) (hR : R.eta = 0) (q : LdltOrders) (n d l : ℕ) (hq : OrdersSum q n d) (hn : n ≤ 128 * 2 ^ l)
    (hs : 8 * (((d + 2) * l + d + 4 : ℕ) * R.u) ≤ 1) (A : ℕ → ℕ → K) (b : ℕ → K) (tiny : K) (ht : 0 ≤ tiny)
    (hp : ∀ k < n, tiny < |flDenseLdlt R q 0 n A k k|) :
    ∀ i < n, |b i - ∑ j ∈ Finset.range n, matCoeff A i j * flDenseSolve R q tiny n (flDenseLdlt R q 0 n A) b j| ≤
      12 * (((d + 2) * l + d + 4 : ℕ) * R.u) *
        ∑ j ∈ Finset.range n, absLdl n (flDenseLdlt R q 0 n A) i j * |flDenseSolve R q tiny n (flDenseLdlt R q 0 n A) b j| := by
  intro i hi
  obtain ⟨h1, h2⟩ := vpow_small R hs
  have hp' : ∀ k, k + 1 < n → flDenseLdlt R q 0 n A k k ≠ 0 := fun k hk => abs_pos.1 (ht.trans_lt (hp k (by omega)))
  have hd : d ≤ (d + 2) * l + d + 4 := by
    have := Nat.zero_le ((d + 2) * l)
    omega
  have hG : (1 + R.u) ^ d < 2 := ((gpow_le_vpow R d).trans (vpow_mono R hd)).trans_lt h1
  have k1 := flDenseSolve_err R hR q hq.fwd hq.bwd hG ht (flDenseLdlt R q 0 n A) b hp i hi
  have k2 := (flDenseLdlt_near R hR q hq l 0 n A le_rfl hn hp').entries (one_le_vpow R _) h1 i hi
  have k3 := coeff_small R (by omega) hd hs
  generalize flDenseLdlt R q 0 n A = M at *
  generalize flDenseSolve R q tiny n M b = x at *
  have hS : 0 ≤ ∑ j ∈ Finset.range n, absLdl n M i j * |x j| :=
    Finset.sum_nonneg fun j _ => mul_nonneg (Finset.sum_nonneg fun _ _ => by positivity) (abs_nonneg _)
  have k4 : |∑ j ∈ Finset.range n, prodLdl n M i j * x j - ∑ j ∈ Finset.range n, matCoeff A i j * x j| ≤
      (kap (vfac R ^ ((d + 2) * l + d + 4)) - 1) * ∑ j ∈ Finset.range n, absLdl n M i j * |x j| := by
    rw [← Finset.sum_sub_distrib, Finset.mul_sum]
    refine (Finset.abs_sum_le_sum_abs _ _).trans (Finset.sum_le_sum fun j hj => ?_)
    rw [← sub_mul, abs_mul, abs_sub_comm]
    have := mul_le_mul_of_nonneg_right (k2 j (Finset.mem_range.1 hj)) (abs_nonneg (x j))
    linarith
  have k5 := abs_sub_le (b i) (∑ j ∈ Finset.range n, prodLdl n M i j * x j) (∑ j ∈ Finset.range n, matCoeff A i j * x j)
  have k6 := mul_le_mul_of_nonneg_right k3 hS
  linarith

/-- When every computed pivot is positive, the residual is of the order of rounding errors in the data: no growth of the factors
enters. -/
theorem C105_positive_pivots (R : Rounding K) (hR : R.eta = 0) (q : LdltOrders) (n d l : ℕ) (hq : OrdersSum q n d) (hn : n ≤ 128 * 2 ^ l)
    (hs : 8 * (((d + 2) * l + d + 4 : ℕ) * R.u) ≤ 1) (A : ℕ → ℕ → K) (b : ℕ → K) (tiny : K) (ht : 0 ≤ tiny)
    (hp : ∀ k < n, tiny < flDenseLdlt R q 0 n A k k) (α : K) (hα : ∀ k < n, A k k ≤ α) :
    ∀ i < n, |b i - ∑ j ∈ Finset.range n, matCoeff A i j * flDenseSolve R q tiny n (flDenseLdlt R q 0 n A) b j| ≤
      20 * (((d + 2) * l + d + 4 : ℕ) * R.u) * α *
        ∑ j ∈ Finset.range n, |flDenseSolve R q tiny n (flDenseLdlt R q 0 n A) b j| := by
  intro i hi
  have hp1 : ∀ k < n, tiny < |flDenseLdlt R q 0 n A k k| := fun k hk => (hp k hk).trans_le (le_abs_self _)
  have hp2 : ∀ k, k + 1 < n → flDenseLdlt R q 0 n A k k ≠ 0 := fun k hk => (ht.trans_lt (hp k (by omega))).ne'
  refine (C105_residual R hR q n d l hq hn hs A b tiny ht hp1 i hi).trans ?_
  obtain ⟨h1, h2⟩ := vpow_small R hs
  have k2 := (flDenseLdlt_near R hR q hq l 0 n A le_rfl hn hp2).entries (one_le_vpow R _) h1
  have hs0 : (0 : K) ≤ (((d + 2) * l + d + 4 : ℕ) : K) * R.u := mul_nonneg (Nat.cast_nonneg _) R.u_nonneg
  generalize flDenseLdlt R q 0 n A = M at *
  generalize flDenseSolve R q tiny n M b = x at *
  generalize (((d + 2) * l + d + 4 : ℕ) : K) * R.u = s at *
  have hpos : ∀ k ∈ Finset.range n, 0 < M k k := fun k hk => ht.trans_lt (hp k (Finset.mem_range.1 hk))
  have diag : ∀ k < n, absLdl n M k k ≤ 5 / 3 * α := by
    intro k hk
    have e : prodLdl n M k k = absLdl n M k k := by
      refine Finset.sum_congr rfl fun m hm => ?_
      rw [abs_of_pos (hpos m hm), mul_right_comm, mul_right_comm |unitLower M k m|, abs_mul_abs_self]
    have h3 := k2 k hk k hk
    rw [e] at h3
    have h4 : matCoeff A k k = A k k := by simp [matCoeff]
    rw [h4] at h3
    have h5 := (abs_le.1 h3).1
    have h6 : 0 ≤ absLdl n M k k := Finset.sum_nonneg fun _ _ => by positivity
    have h7 : (kap (vfac R ^ ((d + 2) * l + d + 4)) - 1) * absLdl n M k k ≤ 2 / 5 * absLdl n M k k :=
      mul_le_mul_of_nonneg_right (by linarith) h6
    have := hα k hk
    linarith
  have offdiag : ∀ j < n, absLdl n M i j ≤ 5 / 3 * α := by
    intro j hj
    have h3 : 2 * absLdl n M i j ≤ absLdl n M i i + absLdl n M j j := by
      simp only [absLdl]
      rw [Finset.mul_sum, ← Finset.sum_add_distrib]
      refine Finset.sum_le_sum fun m _ => ?_
      nlinarith [mul_nonneg (abs_nonneg (M m m)) (sq_nonneg (|unitLower M i m| - |unitLower M j m|))]
    have := diag i hi
    have := diag j hj
    linarith
  have h8 : ∑ j ∈ Finset.range n, absLdl n M i j * |x j| ≤ 5 / 3 * α * ∑ j ∈ Finset.range n, |x j| := by
    rw [Finset.mul_sum]
    exact Finset.sum_le_sum fun j hj => mul_le_mul_of_nonneg_right (offdiag j (Finset.mem_range.1 hj)) (abs_nonneg _)
  have h9 := mul_le_mul_of_nonneg_left h8 (by linarith : 0 ≤ 12 * s)
  linarith

end

/-! ### instances -/

namespace Demo

/-- terms added one after the other, each with a fused multiply-add -/
def seqTree : ℕ → SumTree ℕ
  | 0 => .init
  | m + 1 => .fma m (seqTree m)

/-- every sum accumulated from left to right -/
def seqOrders (n : ℕ) : LdltOrders where
  pivot _ _ j := seqTree j
  column _ _ j _ := seqTree j
  right _ _ _ c := seqTree c
  schur _ m _ _ := seqTree ((m + 1) / 2)
  fwd i := seqTree i
  bwd i := seqTree (n - 1 - i)

end Demo

theorem seqTree_sums (m d : ℕ) (h : m ≤ d) : SumsTo (Demo.seqTree m) m d := by
  have : (Demo.seqTree m).terms.Perm (none :: (List.range m).map some) ∧ (Demo.seqTree m).depth = m := by
    induction m with
    | zero => simp [Demo.seqTree, SumTree.terms, SumTree.depth]
    | succ m ih =>
      obtain ⟨i1, i2⟩ := ih (by omega)
      refine ⟨?_, by simp [Demo.seqTree, SumTree.depth, i2]⟩
      rw [Demo.seqTree, SumTree.terms, List.range_succ, List.map_append]
      refine (i1.cons _).trans ?_
      refine (List.Perm.swap _ _ _).trans (List.Perm.cons _ ?_)
      simpa using (List.perm_append_comm (l₁ := [some m]) (l₂ := (List.range m).map some))
  exact ⟨this.1, this.2.le.trans h⟩

/-- Left-to-right accumulation meets the hypothesis for every size, with `d = n`. -/
theorem C105_sequential (n : ℕ) : OrdersSum (Demo.seqOrders n) n n where
  pivot o m j hm hj := seqTree_sums _ _ (by omega)
  column o m j i hm hj hi := seqTree_sums _ _ (by omega)
  right o m i c hm hc hi := seqTree_sums _ _ (by omega)
  schur o m i c hm hc hi := seqTree_sums _ _ (by omega)
  fwd i hi := seqTree_sums _ _ (by omega)
  bwd i hi := seqTree_sums _ _ (by omega)

theorem roundBits_err (p : ℕ) (x : ℚ) : |roundBits p x - x| ≤ (1 / 2) ^ p * |x| := by
  by_cases hx : x = 0
  · subst hx
    simp [roundBits, nearestEven]
  have h0 : (0 : ℚ) < 2 ^ (Int.log 2 |x| - p + 1) := zpow_pos (by norm_num) _
  have h1 : |roundBits p x - x| ≤ 1 / 2 * 2 ^ (Int.log 2 |x| - p + 1) := by
    have : roundBits p x - x =
        ((nearestEven (x / 2 ^ (Int.log 2 |x| - p + 1)) : ℚ) - x / 2 ^ (Int.log 2 |x| - p + 1)) * 2 ^ (Int.log 2 |x| - p + 1) := by
      unfold roundBits
      rw [sub_mul, div_mul_cancel₀ _ h0.ne']
    rw [this, abs_mul, abs_of_pos h0]
    exact mul_le_mul_of_nonneg_right (nearestEven_err _) h0.le
  have hlog : (2 : ℚ) ^ Int.log 2 |x| ≤ |x| := by
    have := Int.zpow_log_le_self (R := ℚ) (b := 2) (by norm_num) (abs_pos.2 hx)
    simpa using this
  have e1 : (1 / 2 : ℚ) * 2 ^ (Int.log 2 |x| - p + 1) = (1 / 2) ^ p * 2 ^ Int.log 2 |x| := by
    rw [zpow_add₀ (by norm_num), zpow_sub₀ (by norm_num), zpow_natCast, zpow_one, div_pow, one_pow]
    ring
  rw [e1] at h1
  exact h1.trans (mul_le_mul_of_nonneg_left hlog (by positivity))

/-- rounding to nearest with `p` bits and unbounded exponent -/
def bitsRounding (p : ℕ) (hp : 0 < p) : Rounding ℚ where
  rnd := roundBits p
  u := (1 / 2) ^ p
  eta := 0
  u_nonneg := by positivity
  u_lt_one := pow_lt_one₀ (by norm_num) (by norm_num) hp.ne'
  eta_nonneg := le_rfl
  err x := by rw [add_zero]; exact roundBits_err p x

/-- Rounding without underflow is double rounding on zero and on every number of the normal range. -/
theorem C105_no_underflow (x : ℚ) (h : x = 0 ∨ 2 ^ (-1022 : ℤ) ≤ |x|) : binary64.rnd x = (bitsRounding 53 (by norm_num)).rnd x := by
  show ieeeRnd 53 (-1074) x = roundBits 53 x
  rcases h with rfl | h
  · rw [ieeeRnd_zero]; simp [roundBits, nearestEven]
  have h0 : (0 : ℚ) < 2 ^ (-1022 : ℤ) := zpow_pos (by norm_num) _
  have h1 : (-1022 : ℤ) ≤ Int.log 2 |x| := (Int.zpow_le_iff_le_log (by norm_num) (h0.trans_le h)).1 (by simpa using h)
  have h2 : ulpExp 53 (-1074) x = Int.log 2 |x| - (53 : ℕ) + 1 := by
    rw [ulpExp]
    refine max_eq_left ?_
    push_cast
    linarith
  rw [ieeeRnd, h2, roundBits]

/-- the KKT matrix of `min 2⁻⁶¹ x²` under `x = 0` with penalty parameter 1, as stored -/
def Demo.smallHess : ℕ → ℕ → ℚ := fun i j => if i = 0 ∧ j = 0 then 1 / 2 ^ 60 else if i = 1 ∧ j = 1 then -1 else 1

/-- There is no pivoting: on the KKT matrix `[2⁻⁶⁰ 1; 1 -1]` and right-hand side `(1, 0)`, whose solution is about `(1, 1)`, the
solve in double precision returns `(0, 1)`: the residual is 1, far above rounding errors in the data.  The factor `|L| |D| |Lᵀ|` in
`C105_residual` cannot be replaced by `|A|`. -/
theorem C105_small_pivot_false :
    let R := binary64
    let M := flDenseLdlt R (Demo.seqOrders 2) 0 2 Demo.smallHess
    let b : ℕ → ℚ := fun i => if i = 0 then 1 else 0
    let x := flDenseSolve R (Demo.seqOrders 2) (2 ^ (-1022 : ℤ)) 2 M b
    x 0 = 0 ∧ x 1 = 1 ∧ b 1 - ∑ j ∈ Finset.range 2, matCoeff Demo.smallHess 1 j * x j = 1 ∧
    ¬ ∀ i < 2, |b i - ∑ j ∈ Finset.range 2, matCoeff Demo.smallHess i j * x j| ≤
      2 ^ 40 * R.u * ∑ j ∈ Finset.range 2, |matCoeff Demo.smallHess i j| * |x j| := by
  have h : flDenseSolve binary64 (Demo.seqOrders 2) (2 ^ (-1022 : ℤ)) 2 (flLdltUnblocked binary64 (Demo.seqOrders 2) 0 2 Demo.smallHess)
      (fun i => if i = 0 then 1 else 0) 0 = 0 ∧
      flDenseSolve binary64 (Demo.seqOrders 2) (2 ^ (-1022 : ℤ)) 2 (flLdltUnblocked binary64 (Demo.seqOrders 2) 0 2 Demo.smallHess)
      (fun i => if i = 0 then 1 else 0) 1 = 1 := by decide +kernel
  have hM : flDenseLdlt binary64 (Demo.seqOrders 2) 0 2 Demo.smallHess =
      flLdltUnblocked binary64 (Demo.seqOrders 2) 0 2 Demo.smallHess := by
    rw [flDenseLdlt, dif_pos (by norm_num)]
  simp only
  rw [hM]
  obtain ⟨h1, h2⟩ := h
  generalize flDenseSolve binary64 (Demo.seqOrders 2) (2 ^ (-1022 : ℤ)) 2 (flLdltUnblocked binary64 (Demo.seqOrders 2) 0 2 Demo.smallHess)
      (fun i => if i = 0 then 1 else 0) = x at *
  refine ⟨h1, h2, ?_, ?_⟩
  · simp [Finset.sum_range_succ, h1, h2, matCoeff, Demo.smallHess]
  · intro h
    have := h 1 (by norm_num)
    simp [Finset.sum_range_succ, h1, h2, matCoeff, Demo.smallHess, binary64, ieeeRounding] at this
    norm_num at this

/-- a positive definite matrix that is not exactly representable after elimination -/
def Demo.spd3 : ℕ → ℕ → ℚ := fun i j => if i = j then 3 else 1

/-- the hypotheses of `C105_positive_pivots` are met -/
example :
    let R := bitsRounding 53 (by norm_num)
    (∀ k < 3, 2 ^ (-1022 : ℤ) < flDenseLdlt R (Demo.seqOrders 3) 0 3 Demo.spd3 k k) ∧ 8 * ((((3 + 2) * 0 + 3 + 4 : ℕ) : ℚ) * R.u) ≤ 1 := by
  simp only
  rw [flDenseLdlt, dif_pos (by norm_num)]
  exact ⟨by decide +kernel, by decide +kernel⟩

end ProxNLP
