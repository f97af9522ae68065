import Verif.Model.BunchKaufman
import Verif.Lemmas.BlockKind
import Mathlib.Algebra.Order.Field.Basic
import Mathlib.Logic.Equiv.Basic
import Mathlib.Tactic.Ring
import Mathlib.Tactic.FieldSimp
import Mathlib.Tactic.Linarith
import Mathlib.Tactic.Positivity

/-! Pivot choice, interchange and elimination of the Bunch-Kaufman model. -/

set_option linter.unusedSectionVars false
namespace ProxNLP

variable {K : Type} [Field K] [LinearOrder K] [IsStrictOrderedRing K]

theorem maxAbs_spec (f : ℕ → K) (len : ℕ) (hl : 0 < len) :
    (maxAbs f len).1 < len ∧ (maxAbs f len).2 = |f (maxAbs f len).1| ∧ ∀ i < len, |f i| ≤ (maxAbs f len).2 := by
  unfold maxAbs
  have := forRange_ind (fun j (b : ℕ × K) => b.1 < 1 + j ∧ b.2 = |f b.1| ∧ ∀ i < 1 + j, |f i| ≤ b.2) 1 (len - 1)
    (fun i b => if b.2 < |f i| then (i, |f i|) else b) (0, |f 0|)
    ⟨by simp, rfl, fun i hi => by obtain rfl : i = 0 := by omega
                                  exact le_rfl⟩ ?_
  · rwa [show 1 + (len - 1) = len by omega] at this
  · intro j b hj ⟨h1, h2, h3⟩
    split_ifs with h
    · refine ⟨by simp only; omega, rfl, fun i hi => ?_⟩
      by_cases e : i = 1 + j
      · subst e; exact le_rfl
      · exact (h3 i (by omega)).trans h.le
    · refine ⟨by omega, h2, fun i hi => ?_⟩
      by_cases e : i = 1 + j
      · subst e; exact not_lt.1 h
      · exact h3 i (by omega)

theorem bkColMax_spec (n k : ℕ) (col : ℕ → K) (hk : k < n) :
    0 ≤ (bkColMax n k col).2 ∧ (∀ i, k < i → i < n → |col i| ≤ (bkColMax n k col).2) ∧
    (0 < (bkColMax n k col).2 → k < (bkColMax n k col).1 ∧ (bkColMax n k col).1 < n ∧
      (bkColMax n k col).2 = |col (bkColMax n k col).1|) := by
  unfold bkColMax
  by_cases h : k + 1 < n
  · simp only [if_pos h]
    obtain ⟨h1, h2, h3⟩ := maxAbs_spec (fun i => col (k + 1 + i)) (n - k - 1) (by omega)
    refine ⟨by rw [h2]; exact abs_nonneg _, fun i hi hin => ?_, fun _ => ⟨by omega, by omega, ?_⟩⟩
    · have := h3 (i - (k + 1)) (by omega)
      simp only [show k + 1 + (i - (k + 1)) = i by omega] at this
      exact this
    · rw [h2, Nat.add_comm]
  · simp only [if_neg h]
    exact ⟨le_rfl, fun i hi hin => by omega, fun hc => absurd hc (lt_irrefl _)⟩

theorem bkRowMax_spec (n k r : ℕ) (row : ℕ → K) (hk : k < r) (hr : r < n) (i : ℕ) (hi : k ≤ i) (hin : i < n) (hne : i ≠ r) :
    |row i| ≤ bkRowMax n k r row := by
  unfold bkRowMax
  simp only [if_pos (show 0 < r - k by omega)]
  obtain ⟨-, -, h1⟩ := maxAbs_spec (fun j => row (k + j)) (r - k) (by omega)
  have hle : i < r → |row i| ≤ (maxAbs (fun j => row (k + j)) (r - k)).2 := by
    intro h
    have := h1 (i - k) (by omega)
    simp only [show k + (i - k) = i by omega] at this
    exact this
  split_ifs with h
  · by_cases hir : i < r
    · exact (hle hir).trans (le_max_left _ _)
    · obtain ⟨-, -, h2⟩ := maxAbs_spec (fun i => row (r + 1 + i)) (n - r - 1) (by omega)
      have := h2 (i - (r + 1)) (by omega)
      simp only [show r + 1 + (i - (r + 1)) = i by omega] at this
      exact this.trans (le_max_right _ _)
  · exact hle (by omega)

/-- what the pivot choice guarantees; `S` is the symmetric trailing matrix -/
theorem bkChoose_spec (alpha : K) (h0 : 0 < alpha) (h1 : alpha < 1) (n k : ℕ) (S : ℕ → ℕ → K) (hk : k < n)
    (hS : ∀ i j, k ≤ i → i < n → k ≤ j → j < n → S i j = S j i) :
    match bkChoose alpha n k (fun i => S i k) S with
    | none => ∀ i, k ≤ i → i < n → S i k = 0
    | some (kp, false) => k ≤ kp ∧ kp < n ∧ S kp kp ≠ 0
    | some (kp, true) => k + 1 ≤ kp ∧ kp < n ∧ S kp k ≠ 0 ∧ S k k * S kp kp - S kp k * S kp k < 0 := by
  obtain ⟨c0, c1, c2⟩ := bkColMax_spec n k (fun i => S i k) hk
  unfold bkChoose
  simp only
  generalize hcm : bkColMax n k (fun i => S i k) = cm at *
  obtain ⟨imax, colmax⟩ := cm
  simp only at c0 c1 c2 ⊢
  split_ifs with a1 a2 a3 a4
  · intro i hi hin
    have hz : ∀ x : K, 0 ≤ x → x ≤ 0 → x = 0 := fun x p q => le_antisymm q p
    by_cases e : i = k
    · subst e
      have := le_max_left |S i i| colmax
      rw [a1] at this
      exact abs_eq_zero.1 (hz _ (abs_nonneg _) this)
    · have := c1 i (by omega) hin
      have h2 := le_max_right |S k k| colmax
      rw [a1] at h2
      exact abs_eq_zero.1 (hz _ (abs_nonneg _) (this.trans h2))
  · refine ⟨le_rfl, hk, fun hz => ?_⟩
    rw [hz, abs_zero] at a1 a2
    have hcz : colmax = 0 := by
      by_contra hc
      have : 0 < colmax * alpha := mul_pos (lt_of_le_of_ne c0 (Ne.symm hc)) h0
      exact absurd a2 (not_le.2 this)
    rw [hcz] at a1
    exact a1 (max_self 0)
  · -- colmax > 0 in the remaining cases
    have hcp : 0 < colmax := by
      by_contra hc
      have hz : colmax = 0 := le_antisymm (not_lt.1 hc) c0
      rw [hz, zero_mul] at a2
      exact a2 (abs_nonneg _)
    obtain ⟨d1, d2, d3⟩ := c2 hcp
    refine ⟨le_rfl, hk, fun hz => ?_⟩
    rw [hz, abs_zero] at a3
    have hr : colmax ≤ bkRowMax n k imax (S imax) := by
      rw [d3]
      exact bkRowMax_spec n k imax (S imax) d1 d2 k le_rfl hk (by omega)
    have : 0 < alpha * colmax * (colmax / bkRowMax n k imax (S imax)) :=
      mul_pos (mul_pos h0 hcp) (div_pos hcp (lt_of_lt_of_le hcp hr))
    exact absurd a3 (not_le.2 this)
  · have hcp : 0 < colmax := by
      by_contra hc
      have hz : colmax = 0 := le_antisymm (not_lt.1 hc) c0
      rw [hz, zero_mul] at a2
      exact a2 (abs_nonneg _)
    obtain ⟨d1, d2, d3⟩ := c2 hcp
    refine ⟨by omega, d2, fun hz => ?_⟩
    rw [hz, abs_zero] at a4
    have hr : colmax ≤ bkRowMax n k imax (S imax) := by
      rw [d3]
      exact bkRowMax_spec n k imax (S imax) d1 d2 k le_rfl hk (by omega)
    exact absurd a4 (not_le.2 (mul_pos h0 (lt_of_lt_of_le hcp hr)))
  · have hcp : 0 < colmax := by
      by_contra hc
      have hz : colmax = 0 := le_antisymm (not_lt.1 hc) c0
      rw [hz, zero_mul] at a2
      exact a2 (abs_nonneg _)
    obtain ⟨d1, d2, d3⟩ := c2 hcp
    have hr : colmax ≤ bkRowMax n k imax (S imax) := by
      rw [d3]
      exact bkRowMax_spec n k imax (S imax) d1 d2 k le_rfl hk (by omega)
    have hrp := lt_of_lt_of_le hcp hr
    refine ⟨by omega, d2, fun hz => ?_, ?_⟩
    · rw [hz, abs_zero] at d3
      exact absurd hcp (by rw [d3]; exact lt_irrefl _)
    · rw [not_le] at a3 a4
      have e1 : |S k k| * bkRowMax n k imax (S imax) < alpha * colmax * colmax := by
        rw [mul_div_assoc', lt_div_iff₀ hrp] at a3
        exact a3
      have e2 : |S k k * S imax imax| < colmax * colmax := by
        rw [abs_mul]
        calc |S k k| * |S imax imax| ≤ |S k k| * (alpha * bkRowMax n k imax (S imax)) :=
              mul_le_mul_of_nonneg_left a4.le (abs_nonneg _)
          _ = alpha * (|S k k| * bkRowMax n k imax (S imax)) := by ring
          _ ≤ alpha * (alpha * colmax * colmax) := mul_le_mul_of_nonneg_left e1.le h0.le
          _ = (alpha * alpha) * (colmax * colmax) := by ring
          _ < 1 * (colmax * colmax) := mul_lt_mul_of_pos_right (mul_lt_one_of_nonneg_of_lt_one_left h0.le h1 h1.le) (mul_pos hcp hcp)
          _ = colmax * colmax := one_mul _
      have e3 : colmax * colmax = S imax k * S imax k := by rw [d3, abs_mul_abs_self]
      have := (abs_lt.1 e2).2
      linarith

/-! ### what the pivot rule guarantees about the size of the entries -/

/-- every entry of the trailing matrix is at most `m` -/
def MaxOn (k n : ℕ) (S : ℕ → ℕ → K) (m : K) : Prop := ∀ i j, k ≤ i → i < n → k ≤ j → j < n → |S i j| ≤ m

/-- eliminating with the 1x1 pivot `kp` adds at most `m / alpha` to the entries -/
def BkGood1 (alpha : K) (n k kp : ℕ) (S : ℕ → ℕ → K) : Prop :=
  ∀ m, MaxOn k n S m → ∀ i j, k ≤ i → i < n → k ≤ j → j < n → alpha * |S i kp * S j kp| ≤ |S kp kp| * m

/-- absolute values of the entries of `L` in the two columns of the 2x2 pivot `k, kp` -/
def bkL1 (k kp : ℕ) (S : ℕ → ℕ → K) (i : ℕ) : K := |(S kp kp * S i k - S kp k * S i kp) / (S k k * S kp kp - S kp k * S kp k)|

def bkL2 (k kp : ℕ) (S : ℕ → ℕ → K) (i : ℕ) : K := |(S k k * S i kp - S kp k * S i k) / (S k k * S kp kp - S kp k * S kp k)|

/-- the off-diagonal entry of the 2x2 pivot `k, kp` dominates, and eliminating with it adds at most `2 m / (1 - alpha)`;
the products of the absolute values of the factors stay within a multiple of `m` -/
def BkGood2 (alpha : K) (n k kp : ℕ) (S : ℕ → ℕ → K) : Prop :=
  |S k k * S kp kp| ≤ alpha ^ 2 * S kp k ^ 2 ∧
  (∀ m, MaxOn k n S m → ∀ i j, k ≤ i → i < n → i ≠ k → i ≠ kp → k ≤ j → j < n → j ≠ k → j ≠ kp →
    (1 - alpha) * |S kp kp * (S i k * S j k) - S kp k * (S i k * S j kp + S i kp * S j k) + S k k * (S i kp * S j kp)| ≤
      2 * m * |S k k * S kp kp - S kp k * S kp k|) ∧
  ∀ m, MaxOn k n S m → ∀ i j, k ≤ i → i < n → k ≤ j → j < n →
    (1 - alpha) ^ 2 * (bkL1 k kp S i * |S k k| * bkL1 k kp S j + bkL1 k kp S i * |S kp k| * bkL2 k kp S j +
      bkL2 k kp S i * |S kp k| * bkL1 k kp S j + bkL2 k kp S i * |S kp kp| * bkL2 k kp S j) ≤ 2 * (1 + alpha) * m

theorem bkRowMax_le (n k r : ℕ) (row : ℕ → K) (hk : k < r) (m : K) (hm : ∀ i, k ≤ i → i < n → |row i| ≤ m) (hr : r < n) :
    bkRowMax n k r row ≤ m := by
  unfold bkRowMax
  simp only [if_pos (show 0 < r - k by omega)]
  obtain ⟨a1, a2, -⟩ := maxAbs_spec (fun j => row (k + j)) (r - k) (by omega)
  have hle : (maxAbs (fun j => row (k + j)) (r - k)).2 ≤ m := by rw [a2]; exact hm _ (by omega) (by omega)
  split_ifs with h
  · obtain ⟨b1, b2, -⟩ := maxAbs_spec (fun i => row (r + 1 + i)) (n - r - 1) (by omega)
    exact max_le hle (by rw [b2]; exact hm _ (by omega) (by omega))
  · exact hle

/-- the pivot rule of Bunch and Kaufman bounds the growth -/
theorem bkChoose_good (alpha : K) (h0 : 0 < alpha) (h1 : alpha < 1) (n k : ℕ) (S : ℕ → ℕ → K) (hk : k < n)
    (hS : ∀ i j, k ≤ i → i < n → k ≤ j → j < n → S i j = S j i) :
    match bkChoose alpha n k (fun i => S i k) S with
    | none => True
    | some (kp, false) => BkGood1 alpha n k kp S
    | some (kp, true) => BkGood2 alpha n k kp S := by
  obtain ⟨c0, c1, c2⟩ := bkColMax_spec n k (fun i => S i k) hk
  unfold bkChoose
  simp only
  generalize hcm : bkColMax n k (fun i => S i k) = cm at *
  obtain ⟨imax, colmax⟩ := cm
  simp only at c0 c1 c2 ⊢
  -- an entry times the pivot itself
  have triv : ∀ kp m, k ≤ kp → kp < n → MaxOn k n S m → ∀ j, k ≤ j → j < n → alpha * |S kp kp * S j kp| ≤ |S kp kp| * m := by
    intro kp m hkp hkn hm j hj hjn
    rw [abs_mul]
    have h2 := hm j kp hj hjn hkp hkn
    have h3 := mul_le_mul_of_nonneg_left h2 (abs_nonneg (S kp kp))
    have h4 : 0 ≤ |S kp kp| * |S j kp| := mul_nonneg (abs_nonneg _) (abs_nonneg _)
    nlinarith
  have triv' : ∀ kp m, k ≤ kp → kp < n → MaxOn k n S m → ∀ j, k ≤ j → j < n → alpha * |S j kp * S kp kp| ≤ |S kp kp| * m := by
    intro kp m hkp hkn hm j hj hjn
    rw [mul_comm (S j kp)]
    exact triv kp m hkp hkn hm j hj hjn
  have mono : ∀ {i j kp : ℕ} {a b : K}, |S i kp| ≤ a → |S j kp| ≤ b → 0 ≤ a → alpha * |S i kp * S j kp| ≤ alpha * (a * b) := by
    intro i j kp a b ha hb h
    rw [abs_mul]
    exact mul_le_mul_of_nonneg_left (mul_le_mul ha hb (abs_nonneg _) h) h0.le
  split_ifs with a1 a2 a3 a4
  · trivial
  · intro m hm i j hi hin hj hjn
    by_cases ei : i = k
    · subst ei; exact triv i m hi hk hm j hj hjn
    refine (mono (c1 i (by omega) hin) (hm j k hj hjn le_rfl hk) c0).trans ?_
    have hm0 : 0 ≤ m := (abs_nonneg _).trans (hm k k le_rfl hk le_rfl hk)
    have := mul_le_mul_of_nonneg_right a2 hm0
    linarith
  · have hcp : 0 < colmax := by
      by_contra hc
      have hz : colmax = 0 := le_antisymm (not_lt.1 hc) c0
      rw [hz, zero_mul] at a2
      exact a2 (abs_nonneg _)
    obtain ⟨d1, d2, d3⟩ := c2 hcp
    have hr : colmax ≤ bkRowMax n k imax (S imax) := by
      rw [d3]
      exact bkRowMax_spec n k imax (S imax) d1 d2 k le_rfl hk (by omega)
    intro m hm i j hi hin hj hjn
    by_cases ei : i = k
    · subst ei; exact triv i m hi hk hm j hj hjn
    by_cases ej : j = k
    · subst ej; exact triv' j m hj hk hm i hi hin
    refine (mono (c1 i (by omega) hin) (c1 j (by omega) hjn) c0).trans ?_
    have hrm := bkRowMax_le n k imax (S imax) d1 m (fun i hi hin => hm imax i (by omega) d2 hi hin) d2
    rw [mul_div_assoc', div_le_iff₀ (lt_of_lt_of_le hcp hr)] at a3
    have := mul_le_mul_of_nonneg_left hrm (abs_nonneg (S k k))
    linarith
  · have hcp : 0 < colmax := by
      by_contra hc
      have hz : colmax = 0 := le_antisymm (not_lt.1 hc) c0
      rw [hz, zero_mul] at a2
      exact a2 (abs_nonneg _)
    obtain ⟨d1, d2, d3⟩ := c2 hcp
    have row : ∀ i, k ≤ i → i < n → i ≠ imax → |S i imax| ≤ bkRowMax n k imax (S imax) := by
      intro i hi hin hne
      rw [hS i imax hi hin (by omega) d2]
      exact bkRowMax_spec n k imax (S imax) d1 d2 i hi hin hne
    intro m hm i j hi hin hj hjn
    by_cases ei : i = imax
    · subst ei; exact triv i m hi d2 hm j hj hjn
    have hr0 := (abs_nonneg _).trans (row i hi hin ei)
    refine (mono (row i hi hin ei) (hm j imax hj hjn (by omega) d2) hr0).trans ?_
    have hm0 : 0 ≤ m := (abs_nonneg _).trans (hm k k le_rfl hk le_rfl hk)
    have := mul_le_mul_of_nonneg_right a4 hm0
    linarith
  · have hcp : 0 < colmax := by
      by_contra hc
      have hz : colmax = 0 := le_antisymm (not_lt.1 hc) c0
      rw [hz, zero_mul] at a2
      exact a2 (abs_nonneg _)
    obtain ⟨d1, d2, d3⟩ := c2 hcp
    have hr : colmax ≤ bkRowMax n k imax (S imax) := by
      rw [d3]
      exact bkRowMax_spec n k imax (S imax) d1 d2 k le_rfl hk (by omega)
    have row : ∀ i, k ≤ i → i < n → i ≠ imax → |S i imax| ≤ bkRowMax n k imax (S imax) := by
      intro i hi hin hne
      rw [hS i imax hi hin (by omega) d2]
      exact bkRowMax_spec n k imax (S imax) d1 d2 i hi hin hne
    have hrp := lt_of_lt_of_le hcp hr
    rw [not_le] at a3 a4
    have e1 : |S k k| * bkRowMax n k imax (S imax) < alpha * colmax * colmax := by
      rw [mul_div_assoc', lt_div_iff₀ hrp] at a3
      exact a3
    have e2 : |S k k * S imax imax| ≤ alpha ^ 2 * (colmax * colmax) := by
      rw [abs_mul]
      calc |S k k| * |S imax imax| ≤ |S k k| * (alpha * bkRowMax n k imax (S imax)) :=
            mul_le_mul_of_nonneg_left a4.le (abs_nonneg _)
        _ = alpha * (|S k k| * bkRowMax n k imax (S imax)) := by ring
        _ ≤ alpha * (alpha * colmax * colmax) := mul_le_mul_of_nonneg_left e1.le h0.le
        _ = _ := by ring
    have e3 : colmax * colmax = S imax k ^ 2 := by rw [d3, abs_mul_abs_self, sq]
    have t5 : (1 - alpha ^ 2) * (colmax * colmax) ≤ |S k k * S imax imax - S imax k * S imax k| := by
      have v1 := neg_abs_le (S k k * S imax imax - S imax k * S imax k)
      have v2 := le_abs_self (S k k * S imax imax)
      have v3 : colmax * colmax = S imax k * S imax k := by rw [e3, sq]
      linarith
    refine ⟨by rw [← e3]; exact e2, fun m hm i j hi hin hik hip hj hjn hjk hjp => ?_, fun m hm i j hi hin hj hjn => ?_⟩
    swap
    · have hrm := bkRowMax_le n k imax (S imax) d1 m (fun i hi hin => hm imax i (by omega) d2 hi hin) d2
      generalize bkRowMax n k imax (S imax) = w at *
      have u : ∀ i, k ≤ i → i < n → |S i k| ≤ colmax := by
        intro i hi hin
        by_cases e : i = k
        · subst e
          have v1 := (not_le.1 a2).le
          have v2 : colmax * alpha ≤ colmax := mul_le_of_le_one_right c0 h1.le
          linarith
        · exact c1 i (by omega) hin
      have v : ∀ i, k ≤ i → i < n → |S i imax| ≤ w := by
        intro i hi hin
        by_cases e : i = imax
        · subst e
          have v2 : alpha * w ≤ w := mul_le_of_le_one_left hrp.le h1.le
          linarith
        · exact row i hi hin e
      have hδ : 0 < |S k k * S imax imax - S imax k * S imax k| := by
        refine lt_of_lt_of_le (mul_pos ?_ (mul_pos hcp hcp)) t5
        nlinarith
      have p : ∀ i, k ≤ i → i < n → (1 - alpha) * colmax * bkL1 k imax S i ≤ w := by
        intro i hi hin
        have n1 : |S imax imax * S i k - S imax k * S i imax| ≤ (1 + alpha) * w * colmax := by
          refine (abs_sub _ _).trans ?_
          rw [abs_mul, abs_mul, ← d3]
          have x1 := mul_le_mul a4.le (u i hi hin) (abs_nonneg _) (by positivity)
          have x2 := mul_le_mul_of_nonneg_left (v i hi hin) c0
          linarith
        unfold bkL1
        rw [abs_div, ← mul_div_assoc, div_le_iff₀ hδ]
        have x1 := mul_le_mul_of_nonneg_left n1 (mul_nonneg (sub_nonneg.2 h1.le) c0)
        have x2 := mul_le_mul_of_nonneg_left t5 hrp.le
        have x3 : (1 - alpha) * colmax * ((1 + alpha) * w * colmax) = w * ((1 - alpha ^ 2) * (colmax * colmax)) := by ring
        linarith
      have q : ∀ i, k ≤ i → i < n → (1 - alpha) * bkL2 k imax S i ≤ 1 := by
        intro i hi hin
        have n1 : |S k k * S i imax - S imax k * S i k| ≤ (1 + alpha) * (colmax * colmax) := by
          refine (abs_sub _ _).trans ?_
          rw [abs_mul, abs_mul, ← d3]
          have x1 := mul_le_mul_of_nonneg_left (v i hi hin) (abs_nonneg (S k k))
          have x2 := mul_le_mul_of_nonneg_left (u i hi hin) c0
          linarith
        unfold bkL2
        rw [abs_div, ← mul_div_assoc, div_le_iff₀ hδ]
        have x1 := mul_le_mul_of_nonneg_left n1 (sub_nonneg.2 h1.le)
        have x3 : (1 - alpha) * ((1 + alpha) * (colmax * colmax)) = (1 - alpha ^ 2) * (colmax * colmax) := by ring
        linarith
      have hl1 : ∀ i, 0 ≤ bkL1 k imax S i := fun i => abs_nonneg _
      have hl2 : ∀ i, 0 ≤ bkL2 k imax S i := fun i => abs_nonneg _
      have hα : 0 ≤ 1 - alpha := sub_nonneg.2 h1.le
      have p0 : ∀ i, 0 ≤ (1 - alpha) * colmax * bkL1 k imax S i := fun i => mul_nonneg (mul_nonneg hα c0) (hl1 i)
      have q0 : ∀ i, 0 ≤ (1 - alpha) * bkL2 k imax S i := fun i => mul_nonneg hα (hl2 i)
      rw [← d3]
      have f1 : (1 - alpha) ^ 2 * (bkL1 k imax S i * |S k k| * bkL1 k imax S j) ≤ alpha * w := by
        have x1 := mul_le_mul (p i hi hin) (p j hj hjn) (p0 j) hrp.le
        have x2 := mul_le_mul_of_nonneg_left x1 (abs_nonneg (S k k))
        have x3 := mul_le_mul_of_nonneg_right e1.le hrp.le
        refine le_of_mul_le_mul_right ?_ (mul_pos hcp hcp)
        calc _ = |S k k| * ((1 - alpha) * colmax * bkL1 k imax S i * ((1 - alpha) * colmax * bkL1 k imax S j)) := by ring
          _ ≤ _ := x2
          _ = |S k k| * w * w := by ring
          _ ≤ _ := x3
          _ = _ := by ring
      have f2 : (1 - alpha) ^ 2 * (bkL1 k imax S i * colmax * bkL2 k imax S j) ≤ w := by
        have x1 := mul_le_mul (p i hi hin) (q j hj hjn) (q0 j) hrp.le
        calc _ = (1 - alpha) * colmax * bkL1 k imax S i * ((1 - alpha) * bkL2 k imax S j) := by ring
          _ ≤ _ := x1
          _ = _ := by ring
      have f3 : (1 - alpha) ^ 2 * (bkL2 k imax S i * colmax * bkL1 k imax S j) ≤ w := by
        have x1 := mul_le_mul (p j hj hjn) (q i hi hin) (q0 i) hrp.le
        calc _ = (1 - alpha) * colmax * bkL1 k imax S j * ((1 - alpha) * bkL2 k imax S i) := by ring
          _ ≤ _ := x1
          _ = _ := by ring
      have f4 : (1 - alpha) ^ 2 * (bkL2 k imax S i * |S imax imax| * bkL2 k imax S j) ≤ alpha * w := by
        have x1 := mul_le_mul (q i hi hin) (q j hj hjn) (q0 j) zero_le_one
        have x2 := mul_le_mul_of_nonneg_left x1 (abs_nonneg (S imax imax))
        calc _ = |S imax imax| * ((1 - alpha) * bkL2 k imax S i * ((1 - alpha) * bkL2 k imax S j)) := by ring
          _ ≤ _ := x2
          _ ≤ _ := by linarith
      have f5 := mul_le_mul_of_nonneg_left hrm (by linarith : 0 ≤ 2 * (1 + alpha))
      linarith
    have hrm := bkRowMax_le n k imax (S imax) d1 m (fun i hi hin => hm imax i (by omega) d2 hi hin) d2
    generalize bkRowMax n k imax (S imax) = w at *
    have u1 : |S i k| ≤ colmax := c1 i (by omega) hin
    have u2 : |S j k| ≤ colmax := c1 j (by omega) hjn
    have u3 := row i hi hin hip
    have u4 := row j hj hjn hjp
    have t1 : |S imax imax * (S i k * S j k)| ≤ alpha * w * (colmax * colmax) := by
      rw [abs_mul, abs_mul]
      exact mul_le_mul a4.le (mul_le_mul u1 u2 (abs_nonneg _) c0) (by positivity) (by positivity)
    have t2 : |S imax k * (S i k * S j imax + S i imax * S j k)| ≤ 2 * w * (colmax * colmax) := by
      rw [abs_mul, ← d3]
      have v1 : |S i k * S j imax| ≤ colmax * w := by rw [abs_mul]; exact mul_le_mul u1 u4 (abs_nonneg _) c0
      have v2 : |S i imax * S j k| ≤ w * colmax := by rw [abs_mul]; exact mul_le_mul u3 u2 (abs_nonneg _) hrp.le
      have v3 := (abs_add_le (S i k * S j imax) (S i imax * S j k)).trans (add_le_add v1 v2)
      have := mul_le_mul_of_nonneg_left v3 c0
      linarith
    have t3 : |S k k * (S i imax * S j imax)| ≤ alpha * w * (colmax * colmax) := by
      rw [abs_mul, abs_mul]
      have v1 := mul_le_mul u3 u4 (abs_nonneg _) hrp.le
      have v2 := mul_le_mul_of_nonneg_left v1 (abs_nonneg (S k k))
      have v3 := mul_le_mul_of_nonneg_right e1.le hrp.le
      linarith
    have t4 : |S imax imax * (S i k * S j k) - S imax k * (S i k * S j imax + S i imax * S j k) + S k k * (S i imax * S j imax)| ≤
        2 * (1 + alpha) * w * (colmax * colmax) := by
      have v1 := abs_add_le (S imax imax * (S i k * S j k) - S imax k * (S i k * S j imax + S i imax * S j k)) (S k k * (S i imax * S j imax))
      have v2 := abs_sub (S imax imax * (S i k * S j k)) (S imax k * (S i k * S j imax + S i imax * S j k))
      linarith
    have t6 := mul_le_mul_of_nonneg_left t4 (by linarith : 0 ≤ 1 - alpha)
    have hm0 : 0 ≤ m := (abs_nonneg _).trans (hm k k le_rfl hk le_rfl hk)
    calc _ ≤ _ := t6
      _ = 2 * w * ((1 - alpha ^ 2) * (colmax * colmax)) := by ring
      _ ≤ 2 * w * |S k k * S imax imax - S imax k * S imax k| := mul_le_mul_of_nonneg_left t5 (by positivity)
      _ ≤ _ := mul_le_mul_of_nonneg_right (by linarith) (abs_nonneg _)

theorem BkGood1.congr {alpha : K} {n k kp : ℕ} {S S' : ℕ → ℕ → K} (h : BkGood1 alpha n k kp S) (hk : k ≤ kp) (hkp : kp < n)
    (hs : ∀ i j, k ≤ i → i < n → k ≤ j → j < n → S' i j = S i j) : BkGood1 alpha n k kp S' := by
  intro m hm i j hi hin hj hjn
  rw [hs i kp hi hin hk hkp, hs j kp hj hjn hk hkp, hs kp kp hk hkp hk hkp]
  exact h m (fun i j a b c d => by rw [← hs i j a b c d]; exact hm i j a b c d) i j hi hin hj hjn

theorem BkGood2.congr {alpha : K} {n k kp : ℕ} {S S' : ℕ → ℕ → K} (h : BkGood2 alpha n k kp S) (hk : k ≤ kp) (hkp : kp < n)
    (hs : ∀ i j, k ≤ i → i < n → k ≤ j → j < n → S' i j = S i j) : BkGood2 alpha n k kp S' := by
  have hkk : k < n := by omega
  refine ⟨?_, fun m hm i j hi hin hik hip hj hjn hjk hjp => ?_, fun m hm i j hi hin hj hjn => ?_⟩
  · rw [hs k k le_rfl hkk le_rfl hkk, hs kp kp hk hkp hk hkp, hs kp k hk hkp le_rfl hkk]
    exact h.1
  · rw [hs k k le_rfl hkk le_rfl hkk, hs kp kp hk hkp hk hkp, hs kp k hk hkp le_rfl hkk, hs i k hi hin le_rfl hkk, hs j k hj hjn le_rfl hkk,
      hs i kp hi hin hk hkp, hs j kp hj hjn hk hkp]
    exact h.2.1 m (fun i j a b c d => by rw [← hs i j a b c d]; exact hm i j a b c d) i j hi hin hik hip hj hjn hjk hjp
  · have := h.2.2 m (fun i j a b c d => by rw [← hs i j a b c d]; exact hm i j a b c d) i j hi hin hj hjn
    unfold bkL1 bkL2 at this ⊢
    rw [hs k k le_rfl hkk le_rfl hkk, hs kp kp hk hkp hk hkp, hs kp k hk hkp le_rfl hkk, hs i k hi hin le_rfl hkk, hs j k hj hjn le_rfl hkk,
      hs i kp hi hin hk hkp, hs j kp hj hjn hk hkp]
    exact this

/-- the symmetric matrix stored in the lower half -/
theorem symRow_symm (a : ℕ → ℕ → K) (i j : ℕ) : symRow a i j = symRow a j i := by
  unfold symRow
  rcases lt_trichotomy i j with h | h | h
  · rw [if_neg (by omega), if_pos (by omega)]
  · subst h; rfl
  · rw [if_pos (by omega), if_neg (by omega)]

theorem bkSwap1_sym (n kk kp : ℕ) (a : ℕ → ℕ → K) (hk : kk < kp) (hkp : kp < n) (i j : ℕ) (hj : kk ≤ j) (hji : j ≤ i) (hin : i < n) :
    bkSwapDiag kk kp (bkSwapMid kk kp (bkSwapCols n kk kp a)) i j = symRow a (Equiv.swap kk kp i) (Equiv.swap kk kp j) := by
  simp only [Equiv.swap_apply_def, symRow]
  unfold bkSwapDiag
  by_cases h1 : i = kk ∧ j = kk
  · rw [if_pos h1]
    simp only [bkSwapMid, bkSwapCols]
    grind
  · rw [if_neg h1]
    by_cases h2 : i = kp ∧ j = kp
    · rw [if_pos h2]
      simp only [bkSwapMid, bkSwapCols]
      grind
    · rw [if_neg h2]
      simp only [bkSwapMid, bkSwapCols]
      grind

theorem bkSwap1_left (n kk kp : ℕ) (a : ℕ → ℕ → K) (hk : kk < kp) (i c : ℕ) (hc : c < kk) :
    bkSwapDiag kk kp (bkSwapMid kk kp (bkSwapCols n kk kp a)) i c = a i c := by
  simp only [bkSwapDiag, bkSwapMid, bkSwapCols]
  grind

/-- the interchange permutes rows and columns of the trailing symmetric matrix -/
theorem bkSwap_sym' (n k : ℕ) (two : Bool) (kp : ℕ) (a : ℕ → ℕ → K) (hk : (if two then k + 1 else k) ≤ kp) (hkp : kp < n)
    (i j : ℕ) (hj : k ≤ j) (hji : j ≤ i) (hin : i < n) :
    bkSwap n k two kp a i j =
      symRow a (Equiv.swap (if two then k + 1 else k) kp i) (Equiv.swap (if two then k + 1 else k) kp j) := by
  unfold bkSwap
  cases two
  · simp only [Bool.false_eq_true, if_false] at hk ⊢
    by_cases h : kp = k
    · subst h
      simp [symRow, hji]
    · rw [if_neg h]
      exact bkSwap1_sym n k kp a (by omega) hkp i j hj hji hin
  · simp only [if_true] at hk ⊢
    by_cases h : kp = k + 1
    · subst h
      simp [symRow, hji]
    · rw [if_neg h]
      by_cases hjk : j = k
      · subst hjk
        simp only [bkSwapLead]
        rw [bkSwap1_left n (j + 1) kp a (by omega) kp j (by omega), bkSwap1_left n (j + 1) kp a (by omega) (j + 1) j (by omega),
          bkSwap1_left n (j + 1) kp a (by omega) i j (by omega)]
        simp only [Equiv.swap_apply_def, symRow]
        grind
      · simp only [bkSwapLead, hjk, and_false, if_false]
        exact bkSwap1_sym n (k + 1) kp a (by omega) hkp i j (by omega) hji hin

theorem bkSwap_sym (n k : ℕ) (two : Bool) (kp : ℕ) (a : ℕ → ℕ → K) (hk : (if two then k + 1 else k) ≤ kp) (hkp : kp < n)
    (i j : ℕ) (hi : k ≤ i) (hin : i < n) (hj : k ≤ j) (hjn : j < n) :
    symRow (bkSwap n k two kp a) i j =
      symRow a (Equiv.swap (if two then k + 1 else k) kp i) (Equiv.swap (if two then k + 1 else k) kp j) := by
  by_cases h : j ≤ i
  · rw [← bkSwap_sym' n k two kp a hk hkp i j hj h hin]
    exact if_pos h
  · rw [show symRow (bkSwap n k two kp a) i j = bkSwap n k two kp a j i from if_neg h, bkSwap_sym' n k two kp a hk hkp j i hi (by omega) hjn, symRow_symm]

/-- the interchange leaves the columns of the factor alone -/
theorem bkSwap_left (n k : ℕ) (two : Bool) (kp : ℕ) (a : ℕ → ℕ → K) (hk : (if two then k + 1 else k) ≤ kp) (i c : ℕ) (hc : c < k) :
    bkSwap n k two kp a i c = a i c := by
  unfold bkSwap
  cases two
  · simp only [Bool.false_eq_true, if_false] at hk ⊢
    by_cases h : kp = k
    · rw [if_pos h]
    · rw [if_neg h]
      exact bkSwap1_left n k kp a (by omega) i c hc
  · simp only [if_true] at hk ⊢
    by_cases h : kp = k + 1
    · rw [if_pos h]
    · rw [if_neg h]
      simp only [bkSwapLead, show c ≠ k by omega, and_false, if_false]
      exact bkSwap1_left n (k + 1) kp a (by omega) i c (by omega)

/-- 2x2 elimination in closed form -/
theorem bkElim2_eq (n k : ℕ) (a : ℕ → ℕ → K) (i c : ℕ) :
    bkElim2 n k a i c =
      let D := bkD (a k k) (a (k + 1) k) (a (k + 1) (k + 1))
      if i = k ∧ c = k then D.1 * D.2.2.2
      else if i = k + 1 ∧ c = k then -D.2.2.1 * D.2.2.2
      else if i = k + 1 ∧ c = k + 1 then D.2.1 * D.2.2.2
      else if k + 2 ≤ c ∧ c ≤ i ∧ i < n then
        a i c - (a i k * bkWk D (a c k) (a c (k + 1)) + a i (k + 1) * bkWkp1 D (a c k) (a c (k + 1)))
      else if k + 2 ≤ i ∧ i < n ∧ c = k then bkWk D (a i k) (a i (k + 1))
      else if k + 2 ≤ i ∧ i < n ∧ c = k + 1 then bkWkp1 D (a i k) (a i (k + 1))
      else a i c := by
  unfold bkElim2
  simp only
  generalize bkD (a k k) (a (k + 1) k) (a (k + 1) (k + 1)) = D
  generalize hA : (fun i c => if i = k ∧ c = k then D.1 * D.2.2.2
      else if i = k + 1 ∧ c = k then -D.2.2.1 * D.2.2.2
      else if i = k + 1 ∧ c = k + 1 then D.2.1 * D.2.2.2
      else a i c) = A0
  have h0 : ∀ i c, k + 2 ≤ i → A0 i c = a i c := by
    intro i c h; rw [← hA]; simp only
    rw [if_neg (by omega), if_neg (by omega), if_neg (by omega)]
  have := forRange_ind (fun t (M : ℕ → ℕ → K) => ∀ i c, M i c =
      if k + 2 ≤ c ∧ c < k + 2 + t ∧ c ≤ i ∧ i < n then
        a i c - (a i k * bkWk D (a c k) (a c (k + 1)) + a i (k + 1) * bkWkp1 D (a c k) (a c (k + 1)))
      else if k + 2 ≤ i ∧ i < k + 2 + t ∧ c = k then bkWk D (a i k) (a i (k + 1))
      else if k + 2 ≤ i ∧ i < k + 2 + t ∧ c = k + 1 then bkWkp1 D (a i k) (a i (k + 1))
      else A0 i c) (k + 2) (n - (k + 2)) (fun j a =>
    let wk := bkWk D (a j k) (a j (k + 1))
    let wkp1 := bkWkp1 D (a j k) (a j (k + 1))
    fun i c =>
      if c = j ∧ j ≤ i ∧ i < n then a i j - (a i k * wk + a i (k + 1) * wkp1)
      else if i = j ∧ c = k then wk
      else if i = j ∧ c = k + 1 then wkp1
      else a i c) A0 ?_ ?_
  · rw [this i c, ← hA]
    simp only
    by_cases hn : k + 2 ≤ n
    · rw [show k + 2 + (n - (k + 2)) = n by omega]
      split_ifs <;> first | rfl | omega
    · rw [show n - (k + 2) = 0 by omega]
      split_ifs <;> first | rfl | omega
  · intro i c
    rw [if_neg (by omega), if_neg (by omega), if_neg (by omega)]
  · intro t M ht hM i c
    simp only
    have hrow : ∀ r, k + 2 + t ≤ r → M r k = a r k ∧ M r (k + 1) = a r (k + 1) := by
      intro r hr
      rw [hM, hM, if_neg (by omega), if_neg (by omega), if_neg (by omega), if_neg (by omega), if_neg (by omega), if_neg (by omega),
        h0 r k (by omega), h0 r (k + 1) (by omega)]
      exact ⟨rfl, rfl⟩
    rw [(hrow (k + 2 + t) le_rfl).1, (hrow (k + 2 + t) le_rfl).2]
    by_cases h1 : c = k + 2 + t ∧ k + 2 + t ≤ i ∧ i < n
    · obtain ⟨rfl, h2, h3⟩ := h1
      rw [if_pos ⟨rfl, h2, h3⟩, if_pos (by omega), (hrow i h2).1, (hrow i h2).2, hM, if_neg (by omega), if_neg (by omega),
        if_neg (by omega), h0 i _ (by omega)]
    · rw [if_neg h1]
      by_cases h2 : i = k + 2 + t ∧ c = k
      · obtain ⟨rfl, rfl⟩ := h2
        rw [if_pos ⟨rfl, rfl⟩, if_neg (by omega), if_pos (by omega)]
      · rw [if_neg h2]
        by_cases h3 : i = k + 2 + t ∧ c = k + 1
        · obtain ⟨rfl, rfl⟩ := h3
          rw [if_pos ⟨rfl, rfl⟩, if_neg (by omega), if_neg (by omega), if_pos (by omega)]
        · rw [if_neg h3, hM]
          split_ifs <;> first | rfl | omega

/-- the 2x2 block and its stored inverse -/
theorem bkD_inv (p q r : K) (hq : q ≠ 0) (hdet : p * r - q * q ≠ 0) :
    let D := bkD p q r
    D.1 * D.2.2.2 = r / (p * r - q * q) ∧ -D.2.2.1 * D.2.2.2 = -q / (p * r - q * q) ∧ D.2.1 * D.2.2.2 = p / (p * r - q * q) ∧
    (∀ x y, bkWk D x y = (r * x - q * y) / (p * r - q * q)) ∧ (∀ x y, bkWkp1 D x y = (p * y - q * x) / (p * r - q * q)) := by
  have ha : |q| ≠ 0 := abs_ne_zero.2 hq
  have haq : |q| * |q| = q * q := abs_mul_abs_self q
  have e0 : 1 / |q| * r * (1 / |q| * p) - 1 = (p * r - q * q) / (|q| * |q|) := by
    rw [haq]; rw [show 1 / |q| * r * (1 / |q| * p) = p * r / (|q| * |q|) by field_simp, haq]
    field_simp
  have ed : 1 / (1 / |q| * r * (1 / |q| * p) - 1) * (1 / |q|) = |q| / (p * r - q * q) := by
    rw [e0]; field_simp
  simp only [bkD, bkWk, bkWkp1, ed]
  refine ⟨?_, ?_, ?_, fun x y => ?_, fun x y => ?_⟩ <;> field_simp

end ProxNLP
