import Verif.Model.Gemmt
import Verif.Spec.BlockKind
import Mathlib.Algebra.BigOperators.Ring.Finset
import Mathlib.Algebra.Order.Field.Rat
import Mathlib.Tactic.Ring
import Mathlib.Tactic.NormNum

/-! Property theorems for C59: the block products. -/

set_option linter.unusedSectionVars false
namespace ProxNLP

open BlockKind Spec

variable {K : Type} [Field K]

namespace Spec

/-- The sizes of `lhs` (`m × k`) and `rhs` (`n × k`) fit the kinds: diagonal blocks are square, and a triangular block met by
a diagonal one is large enough to be triangular in the sense used by the code. Every pair of square blocks fits. -/
def FitKinds (lk rk : BlockKind) (m k n : ℕ) : Prop :=
  (lk = diag → m = k) ∧ (rk = diag → n = k) ∧ (lk = triU → rk = diag → k ≤ m) ∧ (lk = diag → rk = triL → n ≤ k)

/-- `dst' = dst + alpha * lhs * rhs^T` on the `m × n` block, and nothing else is touched -/
def AddsProduct (m k n : ℕ) (alpha : K) (lhs rhs dst dst' : ℕ → ℕ → K) : Prop :=
  (∀ r < m, ∀ c < n, dst' r c = dst r c + alpha * ∑ p ∈ Finset.range k, lhs r p * rhs c p) ∧
  ∀ r c, ¬ (r < m ∧ c < n) → dst' r c = dst r c

end Spec

theorem sum_one_term (k : ℕ) (f : ℕ → K) (p : ℕ) (hp : p < k) (h : ∀ q < k, q ≠ p → f q = 0) :
    ∑ q ∈ Finset.range k, f q = f p :=
  Finset.sum_eq_single_of_mem p (Finset.mem_range.2 hp) fun q hq hne => h q (Finset.mem_range.1 hq) hne

theorem sum_all_zero (k : ℕ) (f : ℕ → K) (h : ∀ q < k, f q = 0) : ∑ q ∈ Finset.range k, f q = 0 :=
  Finset.sum_eq_zero fun q hq => h q (Finset.mem_range.1 hq)

theorem gemmtFull_adds (m k n : ℕ) (alpha : K) (lhs rhs lhs' rhs' dst : ℕ → ℕ → K)
    (h : ∀ r < m, ∀ c < n, ∀ p < k, lhs' r p * rhs' c p = lhs r p * rhs c p) :
    AddsProduct m k n alpha lhs rhs dst (gemmtFull m k n alpha lhs' rhs' dst) := by
  constructor
  · intro r hr c hc
    rw [gemmtFull, if_pos ⟨hr, hc⟩]
    congr 2
    exact Finset.sum_congr rfl fun p hp => h r hr c hc p (Finset.mem_range.1 hp)
  · intro r c hrc
    rw [gemmtFull, if_neg hrc]

theorem lowerView_eq {m n : ℕ} {A : ℕ → ℕ → K} (h : HasKind triL m n A) (r c : ℕ) (hr : r < m) (hc : c < n) : lowerView A r c = A r c := by
  unfold lowerView
  split
  · rfl
  · rename_i hn
    exact (h r hr c hc hn).symm

theorem upperView_eq {m n : ℕ} {A : ℕ → ℕ → K} (h : HasKind triU m n A) (r c : ℕ) (hr : r < m) (hc : c < n) : upperView A r c = A r c := by
  unfold upperView
  split
  · rfl
  · rename_i hn
    exact (h r hr c hc hn).symm

/-- **C59** (for all pairs of kinds but one): on blocks of the declared kinds `gemmt` adds `alpha * lhs * rhs^T` to the
destination and changes nothing else. Missing: a diagonal block times a transposed upper triangular block of size at least 2,
where the code is wrong (`C59_diag_triU_false`). -/
theorem C59_adds_product_partial (lk rk : BlockKind) (m k n : ℕ) (alpha : K) (lhs rhs dst : ℕ → ℕ → K)
    (hl : HasKind lk m k lhs) (hr : HasKind rk n k rhs) (hfit : FitKinds lk rk m k n)
    (hbad : lk = diag → rk = triU → k ≤ 1) :
    AddsProduct m k n alpha lhs rhs dst (gemmt lk rk m k n alpha lhs rhs dst) := by
  obtain ⟨hf1, hf2, hf3, hf4⟩ := hfit
  -- a zero operand
  have hz : (lk = zero ∨ rk = zero) → AddsProduct m k n alpha lhs rhs dst dst := by
    intro h
    refine ⟨fun r hr' c hc => ?_, fun _ _ _ => rfl⟩
    rw [sum_all_zero, mul_zero, add_zero]
    intro p hp
    rcases h with rfl | rfl
    · rw [hl r hr' p hp (by simp [Allows]), zero_mul]
    · rw [hr c hc p hp (by simp [Allows]), mul_zero]
  -- a diagonal left operand: one term
  have hdl : lk = diag → ∀ r < m, ∀ c < n, ∑ p ∈ Finset.range k, lhs r p * rhs c p = lhs r r * rhs c r := by
    rintro rfl r hr' c hc
    obtain rfl : m = k := hf1 rfl
    exact sum_one_term _ _ r hr' fun q hq hne => by rw [hl r hr' q hq (by simp only [Allows]; omega), zero_mul]
  have hdr : rk = diag → ∀ r < m, ∀ c < n, ∑ p ∈ Finset.range k, lhs r p * rhs c p = lhs r c * rhs c c := by
    rintro rfl r hr' c hc
    obtain rfl : n = k := hf2 rfl
    exact sum_one_term _ _ c hc fun q hq hne => by rw [hr c hc q hq (by simp only [Allows]; omega), mul_zero]
  cases lk with
  | zero => exact hz (Or.inl rfl)
  | diag =>
    obtain rfl : m = k := hf1 rfl
    cases rk with
    | zero => exact hz (Or.inr rfl)
    | diag =>
      obtain rfl : n = m := hf2 rfl
      refine ⟨fun r hr' c hc => ?_, fun r c hrc => ?_⟩
      · rw [hdl rfl r hr' c hc]
        simp only [gemmt, gemmtDiagDiag]
        by_cases h : r = c
        · subst h; rw [if_pos ⟨rfl, hr', hr'⟩]
        · rw [if_neg (by tauto), hr c hc r hr' (by simp only [Allows]; omega)]; ring
      · simp only [gemmt, gemmtDiagDiag]; rw [if_neg (by omega)]
    | triL =>
      have hn := hf4 rfl rfl
      refine ⟨fun r hr' c hc => ?_, fun r c hrc => ?_⟩
      · rw [hdl rfl r hr' c hc]
        simp only [gemmt, gemmtDiagTriL]
        by_cases h : r ≤ c
        · rw [if_pos ⟨hc, h⟩]
        · rw [if_neg (by omega), hr c hc r hr' (by simp only [Allows]; omega)]; ring
      · simp only [gemmt, gemmtDiagTriL]; rw [if_neg (by omega)]
    | triU =>
      have hk := hbad rfl rfl
      refine ⟨fun r hr' c hc => ?_, fun r c hrc => ?_⟩
      · rw [hdl rfl r hr' c hc]
        obtain rfl : r = 0 := by omega
        simp only [gemmt, gemmtDiagTriU]
        by_cases h : c = 0
        · subst h; rw [if_pos ⟨hc, le_rfl, hr'⟩]
        · rw [if_neg (by omega), hr c hc 0 hr' (by simp only [Allows]; omega)]; ring
      · simp only [gemmt, gemmtDiagTriU]; rw [if_neg (by omega)]
    | dense =>
      refine ⟨fun r hr' c hc => ?_, fun r c hrc => ?_⟩
      · rw [hdl rfl r hr' c hc]
        simp only [gemmt, gemmtDiagDense]
        rw [if_pos ⟨hr', hc⟩]
      · simp only [gemmt, gemmtDiagDense]; rw [if_neg hrc]
  | triL =>
    cases rk with
    | zero => exact hz (Or.inr rfl)
    | diag =>
      obtain rfl : n = k := hf2 rfl
      refine ⟨fun r hr' c hc => ?_, fun r c hrc => ?_⟩
      · rw [hdr rfl r hr' c hc]
        simp only [gemmt, gemmtTriLDiag]
        by_cases h : c ≤ r
        · rw [if_pos ⟨hc, h, hr'⟩]; ring
        · rw [if_neg (by omega), hl r hr' c hc (by simp only [Allows]; omega)]; ring
      · simp only [gemmt, gemmtTriLDiag]; rw [if_neg (by omega)]
    | triL =>
      exact gemmtFull_adds m k n alpha lhs rhs _ _ dst fun r hr' c hc p hp => by rw [lowerView_eq hr c p hc hp]
    | triU =>
      have h := gemmtFull_adds m k n alpha lhs rhs lhs (upperView rhs) dst fun r hr' c hc p hp => by rw [upperView_eq hr c p hc hp]
      refine ⟨fun r hr' c hc => ?_, fun r c hrc => ?_⟩
      · simp only [gemmt, gemmtOnLower]
        by_cases hcr : c ≤ r
        · rw [if_pos hcr, h.1 r hr' c hc]
        · rw [if_neg hcr, sum_all_zero, mul_zero, add_zero]
          intro p hp
          by_cases hpr : p ≤ r
          · rw [hr c hc p hp (by simp only [Allows]; omega), mul_zero]
          · rw [hl r hr' p hp hpr, zero_mul]
      · simp only [gemmt, gemmtOnLower]; rw [h.2 r c hrc, ite_self]
    | dense =>
      exact gemmtFull_adds m k n alpha lhs rhs _ _ dst fun r hr' c hc p hp => by rw [lowerView_eq hl r p hr' hp]
  | triU =>
    cases rk with
    | zero => exact hz (Or.inr rfl)
    | diag =>
      obtain rfl : n = k := hf2 rfl
      have hm := hf3 rfl rfl
      refine ⟨fun r hr' c hc => ?_, fun r c hrc => ?_⟩
      · rw [hdr rfl r hr' c hc]
        simp only [gemmt, gemmtTriUDiag]
        by_cases h : r ≤ c
        · rw [if_pos ⟨hc, h⟩]; ring
        · rw [if_neg (by omega), hl r hr' c hc (by simp only [Allows]; omega)]; ring
      · simp only [gemmt, gemmtTriUDiag]; rw [if_neg (by omega)]
    | triL =>
      have h := gemmtFull_adds m k n alpha lhs rhs lhs (lowerView rhs) dst fun r hr' c hc p hp => by rw [lowerView_eq hr c p hc hp]
      refine ⟨fun r hr' c hc => ?_, fun r c hrc => ?_⟩
      · simp only [gemmt, gemmtOnUpper]
        by_cases hcr : r ≤ c
        · rw [if_pos hcr, h.1 r hr' c hc]
        · rw [if_neg hcr, sum_all_zero, mul_zero, add_zero]
          intro p hp
          by_cases hpr : r ≤ p
          · rw [hr c hc p hp (by simp only [Allows]; omega), mul_zero]
          · rw [hl r hr' p hp hpr, zero_mul]
      · simp only [gemmt, gemmtOnUpper]; rw [h.2 r c hrc, ite_self]
    | triU =>
      exact gemmtFull_adds m k n alpha lhs rhs _ _ dst fun r hr' c hc p hp => by rw [upperView_eq hr c p hc hp]
    | dense =>
      exact gemmtFull_adds m k n alpha lhs rhs _ _ dst fun r hr' c hc p hp => by rw [upperView_eq hl r p hr' hp]
  | dense =>
    cases rk with
    | zero => exact hz (Or.inr rfl)
    | diag =>
      obtain rfl : n = k := hf2 rfl
      refine ⟨fun r hr' c hc => ?_, fun r c hrc => ?_⟩
      · rw [hdr rfl r hr' c hc]
        simp only [gemmt, gemmtDenseDiag]
        rw [if_pos ⟨hr', hc⟩]
      · simp only [gemmt, gemmtDenseDiag]; rw [if_neg hrc]
    | triL => exact gemmtFull_adds m k n alpha lhs rhs _ _ dst fun r hr' c hc p hp => by rw [lowerView_eq hr c p hc hp]
    | triU => exact gemmtFull_adds m k n alpha lhs rhs _ _ dst fun r hr' c hc p hp => by rw [upperView_eq hr c p hc hp]
    | dense => exact gemmtFull_adds m k n alpha lhs rhs _ _ dst fun _ _ _ _ _ _ => rfl

/-- **C59, only the declared part of `rhs` is read**: changing entries of the right operand that its kind excludes does not
change the result (the block factorisation leaves such entries uninitialised). -/
theorem C59_reads_only_kind (lk rk : BlockKind) (m k n : ℕ) (alpha : K) (lhs rhs rhs' dst : ℕ → ℕ → K)
    (h : ∀ r p, Allows rk r p → rhs' r p = rhs r p) :
    gemmt lk rk m k n alpha lhs rhs' dst = gemmt lk rk m k n alpha lhs rhs dst := by
  have hlow : rk = triL → lowerView rhs' = lowerView rhs := by
    rintro rfl
    funext r c
    unfold lowerView
    split
    · rename_i hc; exact h r c hc
    · rfl
  have hup : rk = triU → upperView rhs' = upperView rhs := by
    rintro rfl
    funext r c
    unfold upperView
    split
    · rename_i hc; exact h r c hc
    · rfl
  have hde : rk = dense → rhs' = rhs := by
    rintro rfl
    funext r c
    exact h r c trivial
  cases rk with
  | zero => cases lk <;> rfl
  | diag =>
    have hd : ∀ r, rhs' r r = rhs r r := fun r => h r r rfl
    cases lk <;> funext r c <;> simp only [gemmt, gemmtDiagDiag, gemmtTriLDiag, gemmtTriUDiag, gemmtDenseDiag, hd]
  | triL =>
    cases lk <;> simp only [gemmt, hlow rfl]
    funext r c
    simp only [gemmtDiagTriL]
    by_cases hrc : c < n ∧ r ≤ c
    · rw [if_pos hrc, if_pos hrc, h c r hrc.2]
    · rw [if_neg hrc, if_neg hrc]
  | triU =>
    cases lk <;> simp only [gemmt, hup rfl]
    funext r c
    simp only [gemmtDiagTriU]
    by_cases hrc : c < n ∧ c ≤ r ∧ r < m
    · rw [if_pos hrc, if_pos hrc, h c r hrc.2.1]
    · rw [if_neg hrc, if_neg hrc]
  | dense => rw [hde rfl]

/-- **C59 fails for a diagonal block times a transposed upper triangular block**: `diag(1, 2) * [[1, 1], [0, 1]]^T` has the
entries 1, 2, 2 on and below the diagonal, the code computes 1, 2, 1. -/
theorem C59_diag_triU_false :
    ∃ lhs rhs : ℕ → ℕ → ℚ, HasKind diag 2 2 lhs ∧ HasKind triU 2 2 rhs ∧
      ¬ AddsProduct 2 2 2 1 lhs rhs (fun _ _ => 0) (gemmt diag triU 2 2 2 1 lhs rhs fun _ _ => 0) := by
  refine ⟨fun r c => if r = c then (r : ℚ) + 1 else 0, fun r c => if r ≤ c then 1 else 0, ?_, ?_, ?_⟩
  · intro r _ c _ h
    exact if_neg h
  · intro r _ c _ h
    exact if_neg h
  · rintro ⟨h, _⟩
    have := h 1 (by decide) 1 (by decide)
    simp [gemmt, gemmtDiagTriU, Finset.sum_range_succ] at this

/-- **C59, builds with assertions**: for square blocks of one size every pair of kinds passes Eigen's length checks, but a
diagonal block times a triangular one of size at least 2 aborts. -/
theorem C59_length_checks (lk rk : BlockKind) (k : ℕ) :
    gemmtSizes lk rk k k k = true ↔ ¬ (lk = diag ∧ (rk = triL ∨ rk = triU) ∧ 2 ≤ k) := by
  cases lk <;> cases rk <;> simp only [gemmtSizes, reduceCtorEq, List.all_eq_true, decide_eq_true_eq, List.mem_range, min_self,
    le_refl, and_self, true_and, false_and, and_false, or_false, false_or, not_false_eq_true, true_or, or_true, decide_true,
    iff_true, true_iff, not_le, or_self]
  · constructor
    · intro h
      by_contra hk
      have := h 0 (by omega)
      omega
    · intro h j hj; omega
  · constructor
    · intro h
      by_contra hk
      have := h 1 (by omega)
      omega
    · intro h j hj; omega
  · intro j hj; omega
  · intro j hj; omega

/-- and so the assertion-free result is the one computed when the checks pass -/
theorem C59_checked_adds_product (lk rk : BlockKind) (k : ℕ) (alpha : K) (lhs rhs dst dst' : ℕ → ℕ → K)
    (hl : HasKind lk k k lhs) (hr : HasKind rk k k rhs) (h : gemmtChecked lk rk k k k alpha lhs rhs dst = some dst') :
    AddsProduct k k k alpha lhs rhs dst dst' := by
  simp only [gemmtChecked] at h
  split at h
  · rename_i hs
    rw [C59_length_checks] at hs
    cases h
    refine C59_adds_product_partial lk rk k k k alpha lhs rhs dst hl hr ⟨fun _ => rfl, fun _ => rfl, fun _ _ => le_rfl, fun _ _ => le_rfl⟩ ?_
    intro h1 h2
    by_contra hk
    exact hs ⟨h1, Or.inr h2, by omega⟩
  · cases h

/-- non-vacuity: blocks of two different triangular kinds meet the hypotheses, and the product is not zero -/
example : HasKind triL 2 2 (fun r c => if c ≤ r then (1 : ℚ) else 0) ∧ HasKind triU 2 2 (fun r c => if r ≤ c then (1 : ℚ) else 0) ∧
    gemmt triL triU 2 2 2 (-1) (fun r c => if c ≤ r then (1 : ℚ) else 0) (fun r c => if r ≤ c then 1 else 0) (fun _ _ => 5) 1 0 = 3 := by
  refine ⟨fun r _ c _ h => if_neg h, fun r _ c _ h => if_neg h, by decide +kernel⟩

end ProxNLP
