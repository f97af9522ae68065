import Verif.Spec.FloatBk
import Verif.Lemmas.FloatLdltBlock

/-! Error analysis of the rounded Bunch-Kaufman solve. -/

set_option linter.unusedSectionVars false
namespace ProxNLP

open Spec

variable {K : Type} [Field K] [LinearOrder K] [IsStrictOrderedRing K]

/-! ### multiplying with a stored inverse -/

/-- the error of a product with a stored inverse, seen from the matrix -/
theorem stored_inverse_err {n : ℕ} {D S : ℕ → ℕ → K} {c g : K} (hc : 0 ≤ c) (hg : 0 ≤ g) (hgc : g * c < 1)
    (hDS : ∀ y : ℕ → K, ∀ k < n, ∑ i ∈ Finset.range n, D k i * ∑ j ∈ Finset.range n, S i j * y j = y k)
    (hD : ∀ v : ℕ → K, (∀ i < n, 0 ≤ v i) → ∀ k < n, ∑ i ∈ Finset.range n, |D k i| * ∑ j ∈ Finset.range n, |S i j| *
      ∑ l ∈ Finset.range n, |D j l| * v l ≤ c * ∑ l ∈ Finset.range n, |D k l| * v l)
    (hS : ∀ v : ℕ → K, (∀ i < n, 0 ≤ v i) → ∀ k < n, ∑ i ∈ Finset.range n, |S k i| * ∑ j ∈ Finset.range n, |D i j| *
      ∑ l ∈ Finset.range n, |S j l| * v l ≤ c * ∑ l ∈ Finset.range n, |S k l| * v l)
    {y z : ℕ → K} (hz : ∀ k < n, |z k - ∑ j ∈ Finset.range n, S k j * y j| ≤ g * ∑ j ∈ Finset.range n, |S k j| * |y j|) :
    ∀ k < n, |y k - ∑ j ∈ Finset.range n, D k j * z j| ≤ (1 / (1 - g * c) - 1) * ∑ j ∈ Finset.range n, |D k j| * |z j| := by
  let s : ℕ → K := fun k => ∑ j ∈ Finset.range n, |S k j| * |y j|
  let w : ℕ → K := fun k => ∑ j ∈ Finset.range n, |D k j| * |z j|
  have hpos : 0 < 1 - g * c := by linarith
  have a1 : ∀ k < n, |y k - ∑ j ∈ Finset.range n, D k j * z j| ≤ g * ∑ i ∈ Finset.range n, |D k i| * s i := by
    intro k hk
    have e : y k - ∑ j ∈ Finset.range n, D k j * z j =
        -∑ i ∈ Finset.range n, D k i * (z i - ∑ j ∈ Finset.range n, S i j * y j) := by
      rw [← hDS y k hk, ← Finset.sum_sub_distrib, ← Finset.sum_neg_distrib]
      exact Finset.sum_congr rfl fun i _ => by ring
    rw [e, abs_neg, Finset.mul_sum]
    refine (Finset.abs_sum_le_sum_abs _ _).trans (Finset.sum_le_sum fun i hi => ?_)
    rw [abs_mul]
    have := mul_le_mul_of_nonneg_left (hz i (Finset.mem_range.1 hi)) (abs_nonneg (D k i))
    simp only [s]
    linarith
  have a2 : ∀ k < n, |y k| ≤ w k + g * ∑ i ∈ Finset.range n, |D k i| * s i := by
    intro k hk
    have h1 := a1 k hk
    have h2 : |y k| ≤ |y k - ∑ j ∈ Finset.range n, D k j * z j| + |∑ j ∈ Finset.range n, D k j * z j| := by
      simpa using abs_add_le (y k - ∑ j ∈ Finset.range n, D k j * z j) (∑ j ∈ Finset.range n, D k j * z j)
    have h3 : |∑ j ∈ Finset.range n, D k j * z j| ≤ w k :=
      (Finset.abs_sum_le_sum_abs _ _).trans (Finset.sum_le_sum fun j _ => (abs_mul _ _).le)
    linarith
  have a3 : ∀ k < n, s k ≤ 1 / (1 - g * c) * ∑ j ∈ Finset.range n, |S k j| * w j := by
    intro k hk
    have h1 : s k ≤ ∑ j ∈ Finset.range n, |S k j| * w j + g * ∑ j ∈ Finset.range n, |S k j| * ∑ i ∈ Finset.range n, |D j i| * s i := by
      rw [Finset.mul_sum, ← Finset.sum_add_distrib]
      refine Finset.sum_le_sum fun j hj => ?_
      have := mul_le_mul_of_nonneg_left (a2 j (Finset.mem_range.1 hj)) (abs_nonneg (S k j))
      linarith
    have h2 := mul_le_mul_of_nonneg_left (hS (fun j => |y j|) (fun _ _ => abs_nonneg _) k hk) hg
    rw [div_mul_eq_mul_div, le_div_iff₀ hpos, one_mul]
    have h3 : g * (c * ∑ l ∈ Finset.range n, |S k l| * |y l|) = g * c * s k := by simp only [s]; ring
    rw [h3] at h2
    linarith
  intro k hk
  refine (a1 k hk).trans ?_
  have h1 : ∑ i ∈ Finset.range n, |D k i| * s i ≤
      1 / (1 - g * c) * ∑ i ∈ Finset.range n, |D k i| * ∑ j ∈ Finset.range n, |S i j| * w j := by
    rw [Finset.mul_sum]
    refine Finset.sum_le_sum fun i hi => ?_
    have := mul_le_mul_of_nonneg_left (a3 i (Finset.mem_range.1 hi)) (abs_nonneg (D k i))
    linarith
  have h2 := hD (fun j => |z j|) (fun _ _ => abs_nonneg _) k hk
  have h3 : (1 / (1 - g * c) - 1) = g * (1 / (1 - g * c)) * c := by field_simp; ring
  have h4 : 0 ≤ 1 / (1 - g * c) := by positivity
  have h5 := mul_le_mul_of_nonneg_left h1 hg
  have h6 := mul_le_mul_of_nonneg_left h2 (mul_nonneg hg h4)
  rw [h3]
  calc _ ≤ _ := h5
    _ = g * (1 / (1 - g * c)) * ∑ i ∈ Finset.range n, |D k i| * ∑ j ∈ Finset.range n, |S i j| * w j := by ring
    _ ≤ _ := h6
    _ = _ := by ring

/-! ### 2x2 blocks -/

/-- a 2x2 block `[[a, e], [e, b]]`, its inverse `[[a', e'], [e', b']]` and how large their products are -/
structure GoodBlock (a b e a' b' e' : K) : Prop where
  aa : |a| * |a'| ≤ 3 / 4
  bb : |b| * |b'| ≤ 3 / 4
  ee : |e| * |e'| ≤ 7 / 4
  ae : |a| * |e'| = |e| * |b'|
  be : |b| * |e'| = |e| * |a'|

theorem GoodBlock.of_dominant {a b e a' b' e' : K} (h : 7 * |a * b| ≤ 3 * e ^ 2) (h1 : a * a' + e * e' = 1) (h2 : a * e' + e * b' = 0)
    (h3 : e * a' + b * e' = 0) (h4 : e * e' + b * b' = 1) : GoodBlock a b e a' b' e' := by
  have det : (a * b - e ^ 2) * a' = b := by linear_combination b * h1 - e * h3
  have det2 : (a * b - e ^ 2) * e' = -e := by linear_combination b * h2 - e * h4
  have det3 : (a * b - e ^ 2) * b' = a := by linear_combination a * h4 - e * h2
  have hd : 4 * e ^ 2 ≤ 7 * |a * b - e ^ 2| := by
    have := neg_abs_le (a * b - e ^ 2)
    have := le_abs_self (a * b)
    linarith
  have he : e ≠ 0 := by
    rintro rfl
    have : a * b = 0 := by
      have : |a * b| ≤ 0 := by rw [zero_pow two_ne_zero, mul_zero] at h; linarith
      exact abs_nonpos_iff.1 this
    have hb : b = 0 := by rw [← det, this]; ring
    rw [hb] at h4; simp at h4
  have hpos : 0 < |a * b - e ^ 2| := by
    have : 0 < e ^ 2 := by positivity
    linarith
  have e1 : |a * b - e ^ 2| * |a'| = |b| := by rw [← abs_mul, det]
  have e2 : |a * b - e ^ 2| * |e'| = |e| := by rw [← abs_mul, det2, abs_neg]
  have e3 : |a * b - e ^ 2| * |b'| = |a| := by rw [← abs_mul, det3]
  have e4 : |e| * |e| = e ^ 2 := by rw [abs_mul_abs_self, sq]
  have e5 : |a| * |b| = |a * b| := (abs_mul _ _).symm
  refine ⟨?_, ?_, ?_, ?_, ?_⟩
  · refine le_of_mul_le_mul_left ?_ hpos
    calc _ = |a| * (|a * b - e ^ 2| * |a'|) := by ring
      _ = |a * b| := by rw [e1, e5]
      _ ≤ _ := by linarith
  · refine le_of_mul_le_mul_left ?_ hpos
    calc _ = |b| * (|a * b - e ^ 2| * |b'|) := by ring
      _ = |a * b| := by rw [e3, mul_comm, e5]
      _ ≤ _ := by linarith
  · refine le_of_mul_le_mul_left ?_ hpos
    calc _ = |e| * (|a * b - e ^ 2| * |e'|) := by ring
      _ = e ^ 2 := by rw [e2, e4]
      _ ≤ _ := by linarith
  · rw [← abs_mul, ← abs_mul, ← abs_neg]
    congr 1; linear_combination -h2
  · rw [← abs_mul, ← abs_mul, ← abs_neg]
    congr 1; linear_combination -h3

theorem GoodBlock.swap {a b e a' b' e' : K} (h : GoodBlock a b e a' b' e') : GoodBlock b a e b' a' e' := ⟨h.bb, h.aa, h.ee, h.be, h.ae⟩

theorem GoodBlock.inv {a b e a' b' e' : K} (h : GoodBlock a b e a' b' e') : GoodBlock a' b' e' a b e :=
  ⟨by linarith [h.aa], by linarith [h.bb], by linarith [h.ee], by linarith [h.be], by linarith [h.ae]⟩

/-- a row of `|D| |D⁻¹| |D| v` -/
theorem GoodBlock.row {a b e a' b' e' : K} (h : GoodBlock a b e a' b' e') {v w : K} (hv : 0 ≤ v) (hw : 0 ≤ w) :
    |a| * (|a'| * (|a| * v + |e| * w) + |e'| * (|e| * v + |b| * w)) +
      |e| * (|e'| * (|a| * v + |e| * w) + |b'| * (|e| * v + |b| * w)) ≤ 6 * (|a| * v + |e| * w) := by
  have ha := abs_nonneg a
  have he := abs_nonneg e
  have p1 := mul_le_mul_of_nonneg_right h.aa (mul_nonneg ha hv)
  have p2 := mul_le_mul_of_nonneg_right h.ee (mul_nonneg ha hv)
  have p3 := mul_le_mul_of_nonneg_right h.aa (mul_nonneg he hw)
  have p4 := mul_le_mul_of_nonneg_right h.bb (mul_nonneg he hw)
  have p5 := mul_le_mul_of_nonneg_right h.ee (mul_nonneg he hw)
  have p0 := mul_nonneg he hw
  have q1 : |e| * (|b'| * (|e| * v)) = |e| * |e'| * (|a| * v) := by
    calc _ = (|e| * |b'|) * (|e| * v) := by ring
      _ = _ := by rw [← h.ae]; ring
  have q2 : |a| * (|e'| * (|b| * w)) = |b| * |b'| * (|e| * w) := by
    calc _ = (|a| * |e'|) * (|b| * w) := by ring
      _ = _ := by rw [h.ae]; ring
  nlinarith [q1, q2]

/-! ### the block diagonal factor -/

/-- the columns of one block -/
inductive BlockAt (n : ℕ) (piv : ℕ → ℤ) (D S : ℕ → ℕ → K) (k : ℕ) : Prop
  | one (ht : twoAt piv k = false) (hns : notSecond piv k) (hD : ∀ j < n, j ≠ k → D k j = 0) (hS : ∀ j < n, j ≠ k → S k j = 0) (h : |D k k| * |S k k| = 1)
  | fst (ht : twoAt piv k = true) (hk : k + 1 < n) (hD : ∀ j < n, j ≠ k → j ≠ k + 1 → D k j = 0) (hS : ∀ j < n, j ≠ k → j ≠ k + 1 → S k j = 0)
      (hD' : ∀ j < n, j ≠ k → j ≠ k + 1 → D (k + 1) j = 0) (hS' : ∀ j < n, j ≠ k → j ≠ k + 1 → S (k + 1) j = 0)
      (eD : D (k + 1) k = D k (k + 1)) (eS : S (k + 1) k = S k (k + 1))
      (h : GoodBlock (D k k) (D (k + 1) (k + 1)) (D k (k + 1)) (S k k) (S (k + 1) (k + 1)) (S k (k + 1)))
  | snd (c : ℕ) (ht : twoAt piv c = true) (hk : k = c + 1) (hD : ∀ j < n, j ≠ c → j ≠ c + 1 → D c j = 0) (hS : ∀ j < n, j ≠ c → j ≠ c + 1 → S c j = 0)
      (hD' : ∀ j < n, j ≠ c → j ≠ c + 1 → D (c + 1) j = 0) (hS' : ∀ j < n, j ≠ c → j ≠ c + 1 → S (c + 1) j = 0)
      (eD : D (c + 1) c = D c (c + 1)) (eS : S (c + 1) c = S c (c + 1))
      (h : GoodBlock (D c c) (D (c + 1) (c + 1)) (D c (c + 1)) (S c c) (S (c + 1) (c + 1)) (S c (c + 1)))

theorem BlockAt.inv {n : ℕ} {piv : ℕ → ℤ} {D S : ℕ → ℕ → K} {k : ℕ} (h : BlockAt n piv D S k) : BlockAt n piv S D k := by
  cases h with
  | one ht hns hD hS h => exact .one ht hns hS hD (by rw [mul_comm]; exact h)
  | fst ht hk hD hS hD' hS' eD eS h => exact .fst ht hk hS hD hS' hD' eS eD h.inv
  | snd c ht hk hD hS hD' hS' eD eS h => exact .snd c ht hk hS hD hS' hD' eS eD h.inv

theorem sum_one {n k : ℕ} (hk : k < n) (f : ℕ → K) (h : ∀ j < n, j ≠ k → f j = 0) : ∑ j ∈ Finset.range n, f j = f k :=
  Finset.sum_eq_single k (fun j hj hne => h j (Finset.mem_range.1 hj) hne) fun hn => absurd (Finset.mem_range.2 hk) hn

theorem sum_two {n k : ℕ} (hk : k + 1 < n) (f : ℕ → K) (h : ∀ j < n, j ≠ k → j ≠ k + 1 → f j = 0) :
    ∑ j ∈ Finset.range n, f j = f k + f (k + 1) := by
  rw [Finset.sum_eq_add_of_mem k (k + 1) (Finset.mem_range.2 (by omega)) (Finset.mem_range.2 hk) (by omega)]
  rintro j hj ⟨j1, j2⟩
  exact h j (Finset.mem_range.1 hj) j1 j2

/-- `|D| |S| |D| v ≤ 6 |D| v` -/
theorem BlockAt.bound {n : ℕ} {piv : ℕ → ℤ} {D S : ℕ → ℕ → K} {k : ℕ} (hk : k < n) (h : BlockAt n piv D S k) {v : ℕ → K} (hv : ∀ i < n, 0 ≤ v i) :
    ∑ i ∈ Finset.range n, |D k i| * ∑ j ∈ Finset.range n, |S i j| * ∑ l ∈ Finset.range n, |D j l| * v l ≤
      6 * ∑ l ∈ Finset.range n, |D k l| * v l := by
  have z : ∀ {M : ℕ → ℕ → K} {i j : ℕ} (f : K), M i j = 0 → |M i j| * f = 0 := fun f h => by rw [h, abs_zero, zero_mul]
  cases h with
  | one ht hns hD hS h =>
    rw [sum_one hk _ fun j a b => z _ (hD j a b), sum_one hk _ fun j a b => z _ (hS j a b), sum_one hk _ fun j a b => z _ (hD j a b),
      ← mul_assoc, h, one_mul]
    have := mul_nonneg (abs_nonneg (D k k)) (hv k hk)
    linarith
  | fst ht hk1 hD hS hD' hS' eD eS h =>
    rw [sum_two hk1 _ fun j a b c => z _ (hD j a b c), sum_two hk1 _ fun j a b c => z _ (hS j a b c),
      sum_two hk1 _ fun j a b c => z _ (hS' j a b c), sum_two hk1 _ fun j a b c => z _ (hD j a b c),
      sum_two hk1 _ fun j a b c => z _ (hD' j a b c), eD, eS]
    exact h.row (hv _ hk) (hv _ hk1)
  | snd c ht hk1 hD hS hD' hS' eD eS h =>
    subst hk1
    rw [sum_two hk _ fun j a b c => z _ (hD' j a b c), sum_two hk _ fun j a b c => z _ (hS j a b c),
      sum_two hk _ fun j a b c => z _ (hS' j a b c), sum_two hk _ fun j a b c => z _ (hD j a b c),
      sum_two hk _ fun j a b c => z _ (hD' j a b c), eD, eS]
    have := h.swap.row (hv _ hk) (hv _ (by omega : c < n))
    linarith

/-- the shape of the blocks of a factorisation and of their stored inverses -/
theorem Spec.HoldsFactors.blockAt {o : BkObj K} {A D : ℕ → ℕ → K} (h : HoldsFactors o A D) (hd : DominantBlocks o D) {k : ℕ} (hk : k < o.n) :
    BlockAt o.n o.piv D (storedBlocks o) k := by
  have hf := h.factor
  have zero : ∀ i j, i < o.n → j < o.n → i ≠ j → ¬ (twoAt o.piv i = true ∧ j = i + 1) → ¬ (twoAt o.piv j = true ∧ i = j + 1) → D i j = 0 := by
    intro i j hi hj hne a1 a2
    rcases lt_or_gt_of_ne hne with h | h
    · exact hf.blocks i hi j hj h a1
    · rw [hf.symm i hi j hj]
      exact hf.blocks j hj i hi h a2
  have dbl : ∀ c, c + 1 < o.n → twoAt o.piv c = true →
      (∀ j < o.n, j ≠ c → j ≠ c + 1 → D c j = 0) ∧ (∀ j < o.n, j ≠ c → j ≠ c + 1 → storedBlocks o c j = 0) ∧
      (∀ j < o.n, j ≠ c → j ≠ c + 1 → D (c + 1) j = 0) ∧ (∀ j < o.n, j ≠ c → j ≠ c + 1 → storedBlocks o (c + 1) j = 0) ∧
      D (c + 1) c = D c (c + 1) ∧ storedBlocks o (c + 1) c = storedBlocks o c (c + 1) ∧
      GoodBlock (D c c) (D (c + 1) (c + 1)) (D c (c + 1)) (storedBlocks o c c) (storedBlocks o (c + 1) (c + 1)) (storedBlocks o c (c + 1)) := by
    intro c hc ht
    have hns : ∀ c0, c = c0 + 1 → twoAt o.piv c0 = false := by
      rintro c0 rfl
      by_contra hne
      have := hf.two_single c0 (by simpa using hne)
      rw [this] at ht; cases ht
    have ht1 := hf.two_single c ht
    have z1 : ∀ j < o.n, j ≠ c → j ≠ c + 1 → D c j = 0 := fun j hj j1 j2 =>
      zero c j (by omega) hj (Ne.symm j1) (fun e => j2 e.2) fun e => by rw [hns j e.2] at e; cases e.1
    have z2 : ∀ j < o.n, j ≠ c → j ≠ c + 1 → D (c + 1) j = 0 := fun j hj j1 j2 =>
      zero (c + 1) j hc hj (Ne.symm j2) (fun e => by rw [ht1] at e; cases e.1) fun e => j1 (by omega)
    have sy : D (c + 1) c = D c (c + 1) := hf.symm _ hc _ (by omega)
    have ne := hf.two_ne c (by omega) ht
    have i1 : ∀ j < o.n, D c c * storedBlocks o c j + D c (c + 1) * storedBlocks o (c + 1) j = if c = j then 1 else 0 := by
      intro j hj
      rw [← h.inverse c (by omega) j hj, sum_two hc]
      intro i a b e; rw [z1 i a b e, zero_mul]
    have i2 : ∀ j < o.n, D (c + 1) c * storedBlocks o c j + D (c + 1) (c + 1) * storedBlocks o (c + 1) j = if c + 1 = j then 1 else 0 := by
      intro j hj
      rw [← h.inverse (c + 1) hc j hj, sum_two hc]
      intro i a b e; rw [z2 i a b e, zero_mul]
    have ss : storedBlocks o (c + 1) c = storedBlocks o c (c + 1) := by
      simp only [storedBlocks]
      rw [if_neg (by omega), if_pos trivial, if_neg (by omega), if_neg (by omega), if_pos trivial]
    refine ⟨z1, fun j hj j1 j2 => ?_, z2, fun j hj j1 j2 => ?_, sy, ss, ?_⟩
    · have q1 := i1 j hj
      have q2 := i2 j hj
      rw [if_neg (Ne.symm j1)] at q1
      rw [if_neg (Ne.symm j2)] at q2
      refine (mul_eq_zero.1 ?_).resolve_left ne
      linear_combination D (c + 1) (c + 1) * q1 - D c (c + 1) * q2
    · have q1 := i1 j hj
      have q2 := i2 j hj
      rw [if_neg (Ne.symm j1)] at q1
      rw [if_neg (Ne.symm j2)] at q2
      refine (mul_eq_zero.1 ?_).resolve_left ne
      linear_combination D c c * q2 - D (c + 1) c * q1
    · have q1 := i1 c (by omega)
      have q2 := i2 c (by omega)
      have q3 := i1 (c + 1) hc
      have q4 := i2 (c + 1) hc
      rw [if_pos rfl] at q1 q4
      rw [if_neg (by omega)] at q2 q3
      rw [ss] at q1 q2
      rw [sy] at q2 q4
      have hdc := hd c (by omega) ht
      rw [sy] at hdc
      exact .of_dominant hdc q1 q3 q2 q4
  rcases h.pivots.cases trivial k (Nat.zero_le _) hk with ⟨a1, a2⟩ | ⟨a1, a2⟩ | ⟨c, rfl, -, a1⟩
  · have z1 : ∀ j < o.n, j ≠ k → D k j = 0 := fun j hj j1 =>
      zero k j hk hj (Ne.symm j1) (fun e => by rw [a1] at e; cases e.1) fun e => by
        rw [e.2, notSecond, e.1] at a2; cases a2
    have i1 : ∀ j < o.n, D k k * storedBlocks o k j = if k = j then 1 else 0 := by
      intro j hj
      rw [← h.inverse k hk j hj, sum_one hk]
      intro i a b; rw [z1 i a b, zero_mul]
    have i0 := i1 k hk
    rw [if_pos rfl] at i0
    refine .one a1 a2 z1 (fun j hj j1 => ?_) ?_
    · have := i1 j hj
      rw [if_neg (Ne.symm j1)] at this
      exact (mul_eq_zero.1 this).resolve_left (left_ne_zero_of_mul_eq_one i0)
    · rw [← abs_mul, i0, abs_one]
  · obtain ⟨b1, b2, b3, b4, b5, b6, b7⟩ := dbl k a2 a1
    exact .fst a1 a2 b1 b2 b3 b4 b5 b6 b7
  · obtain ⟨b1, b2, b3, b4, b5, b6, b7⟩ := dbl c hk a1
    exact .snd c a1 rfl b1 b2 b3 b4 b5 b6 b7

/-! ### the stages of the solve -/

theorem flBkSolveD_spec (R : Rounding K) (t : ℕ → SumTree ℕ) {n : ℕ} {piv : ℕ → ℤ} (mat : ℕ → ℕ → K) (e : ℕ → K) {k : ℕ}
    (h : PivPath n piv k) (hk : notSecond piv k) (x : ℕ → K) :
    let r := forPivots n piv
      (fun k _ x i => if i = k then (t k).eval R 0 (twoTerms (x k, mat k k) (x (k + 1), e k))
        else if i = k + 1 then (t (k + 1)).eval R 0 (twoTerms (x (k + 1), mat (k + 1) (k + 1)) (x k, e k)) else x i)
      (fun k _ x i => if i = k then R.rnd (x k * mat k k) else x i) k x
    (∀ i < k, r i = x i) ∧
    (∀ c, k ≤ c → c < n → twoAt piv c = false → notSecond piv c → r c = R.rnd (x c * mat c c)) ∧
    (∀ c, k ≤ c → c < n → twoAt piv c = true →
      r c = (t c).eval R 0 (twoTerms (x c, mat c c) (x (c + 1), e c)) ∧
      r (c + 1) = (t (c + 1)).eval R 0 (twoTerms (x (c + 1), mat (c + 1) (c + 1)) (x c, e c))) := by
  induction h generalizing x with
  | done =>
    simp only [forPivots_done]
    exact ⟨fun i _ => trivial, fun c h1 h2 => by omega, fun c h1 h2 => by omega⟩
  | one k p h1 h2 h3 hr ih =>
    simp only [forPivots_one _ _ _ h1 h2 h3]
    obtain ⟨i1, i2, i3⟩ := ih (notSecond_one hk (by omega)) fun i => if i = k then R.rnd (x k * mat k k) else x i
    have ht : twoAt piv k = false := by rw [twoAt_of_notSecond hk, h3]; simp
    refine ⟨fun i hi => ?_, fun c hc hcn a1 a2 => ?_, fun c hc hcn a1 => ?_⟩
    · rw [i1 i (by omega), if_neg (by omega)]
    · by_cases ec : c = k
      · subst ec; rw [i1 c (by omega), if_pos rfl]
      · rw [i2 c (by omega) hcn a1 a2, if_neg ec]
    · have ec : c ≠ k := by rintro rfl; rw [ht] at a1; cases a1
      obtain ⟨b1, b2⟩ := i3 c (by omega) hcn a1
      rw [b1, b2, if_neg ec, if_neg (by omega)]
      exact ⟨rfl, rfl⟩
  | two k p h1 h2 h3 h4 hr ih =>
    simp only [forPivots_two _ _ _ h1 h2 h3]
    obtain ⟨i1, i2, i3⟩ := ih (notSecond_two hk (by omega)) fun i => if i = k then (t k).eval R 0 (twoTerms (x k, mat k k) (x (k + 1), e k))
        else if i = k + 1 then (t (k + 1)).eval R 0 (twoTerms (x (k + 1), mat (k + 1) (k + 1)) (x k, e k)) else x i
    have ht : twoAt piv k = true := by rw [twoAt_of_notSecond hk, h3]; simp; omega
    have ht1 : twoAt piv (k + 1) = false := by simp [twoAt, ht]
    refine ⟨fun i hi => ?_, fun c hc hcn a1 a2 => ?_, fun c hc hcn a1 => ?_⟩
    · rw [i1 i (by omega), if_neg (by omega), if_neg (by omega)]
    · have ec : c ≠ k := by rintro rfl; rw [ht] at a1; cases a1
      have ec1 : c ≠ k + 1 := by rintro rfl; simp only [notSecond] at a2; rw [ht] at a2; cases a2
      rw [i2 c (by omega) hcn a1 a2, if_neg ec, if_neg ec1]
    · by_cases ec : c = k
      · subst ec
        rw [i1 c (by omega), i1 (c + 1) (by omega), if_pos rfl, if_neg (by omega), if_pos rfl]
        exact ⟨rfl, rfl⟩
      · have ec1 : c ≠ k + 1 := by rintro rfl; rw [ht1] at a1; cases a1
        obtain ⟨b1, b2⟩ := i3 c (by omega) hcn a1
        rw [b1, b2, if_neg ec, if_neg ec1, if_neg (by omega), if_neg (by omega)]
        exact ⟨rfl, rfl⟩

/-- a row of a 2x2 block -/
theorem twoTerms_err (R : Rounding K) (he : R.eta = 0) {t : SumTree ℕ} {d : ℕ} (ht : t.terms.Perm [some 0, some 1]) (hd : t.depth ≤ d)
    (a b : K × K) :
    |t.eval R 0 (twoTerms a b) - (a.1 * a.2 + b.1 * b.2)| ≤ ((1 + R.u) ^ d - 1) * (|a.1 * a.2| + |b.1 * b.2|) := by
  have h0 := sumTree_error R 0 (twoTerms a b) t
  have e1 : t.exact 0 (twoTerms a b) = a.1 * a.2 + b.1 * b.2 := by
    rw [SumTree.exact, (ht.map _).sum_eq]; simp [termVal, twoTerms]
  have e2 : t.absSum 0 (twoTerms a b) = |a.1 * a.2| + |b.1 * b.2| := by
    rw [SumTree.absSum, (ht.map _).sum_eq]; simp [termVal, twoTerms, abs_mul]
  rw [he, e1] at h0
  have h1 := mul_le_mul_of_nonneg_right (sub_le_sub_right (G_mono R hd) 1) (absSum_nonneg 0 (twoTerms a b) t)
  rw [← e2]
  linarith

/-- the product with the stored inverse of `D`, against the exact product -/
theorem flBkSolveD_err (R : Rounding K) (he : R.eta = 0) {q : BkOrders} {d : ℕ} {o : BkObj K} (hq : BkOrdersSum q o.n d) {A D : ℕ → ℕ → K}
    (h : HoldsFactors o A D) (hd : DominantBlocks o D) (y : ℕ → K) : ∀ k < o.n,
    |flBkSolveD R q.diag o.n o.piv o.mat o.subdiag y k - ∑ j ∈ Finset.range o.n, storedBlocks o k j * y j| ≤
      ((1 + R.u) ^ d - 1) * ∑ j ∈ Finset.range o.n, |storedBlocks o k j| * |y j| := by
  intro k hk
  obtain ⟨-, d1, d2⟩ := flBkSolveD_spec R q.diag o.mat o.subdiag h.pivots trivial y
  change (∀ c, 0 ≤ c → c < o.n → twoAt o.piv c = false → notSecond o.piv c → flBkSolveD R q.diag o.n o.piv o.mat o.subdiag y c = _) at d1
  change (∀ c, 0 ≤ c → c < o.n → twoAt o.piv c = true → flBkSolveD R q.diag o.n o.piv o.mat o.subdiag y c = _ ∧
    flBkSolveD R q.diag o.n o.piv o.mat o.subdiag y (c + 1) = _) at d2
  have dia : ∀ c, storedBlocks o c c = o.mat c c := fun c => by simp [storedBlocks]
  have sub : ∀ c, storedBlocks o c (c + 1) = o.subdiag c := fun c => by
    simp only [storedBlocks]; rw [if_neg (by omega), if_neg (by omega), if_pos trivial]
  have z : ∀ {M : ℕ → ℕ → K} {i j : ℕ} (f : K), M i j = 0 → |M i j| * f = 0 := fun f h => by rw [h, abs_zero, zero_mul]
  have z' : ∀ {M : ℕ → ℕ → K} {i j : ℕ} (f : K), M i j = 0 → M i j * f = 0 := fun f h => by rw [h, zero_mul]
  cases h.blockAt hd hk with
  | one ht hns hD hS hh =>
    rw [sum_one hk _ fun j a b => z _ (hS j a b), sum_one hk _ fun j a b => z' _ (hS j a b), d1 k (Nat.zero_le _) hk ht hns, dia]
    have h1 := rnd_rel R he (y k * o.mat k k)
    have h2 : R.u ≤ (1 + R.u) ^ d - 1 := by
      have := G_mono R hq.pos
      rw [pow_one] at this
      linarith
    have h3 := mul_le_mul_of_nonneg_right h2 (abs_nonneg (y k * o.mat k k))
    rw [abs_mul] at h3
    rw [mul_comm (o.mat k k), mul_comm |o.mat k k|]
    rw [abs_mul] at h1
    linarith
  | fst ht hk1 hD hS hD' hS' eD eS hh =>
    rw [sum_two hk1 _ fun j a b c => z _ (hS j a b c), sum_two hk1 _ fun j a b c => z' _ (hS j a b c),
      (d2 k (Nat.zero_le _) hk ht).1, dia, sub]
    have := twoTerms_err R he (hq.diag k hk).1 (hq.diag k hk).2 (y k, o.mat k k) (y (k + 1), o.subdiag k)
    simp only [abs_mul] at this
    rwa [mul_comm (o.mat k k), mul_comm |o.mat k k|, mul_comm (o.subdiag k), mul_comm |o.subdiag k|]
  | snd c ht hk1 hD hS hD' hS' eD eS hh =>
    subst hk1
    rw [sum_two hk _ fun j a b c => z _ (hS' j a b c), sum_two hk _ fun j a b c => z' _ (hS' j a b c),
      (d2 c (Nat.zero_le _) (by omega) ht).2, dia, eS, sub]
    have := twoTerms_err R he (hq.diag (c + 1) hk).1 (hq.diag (c + 1) hk).2 (y (c + 1), o.mat (c + 1) (c + 1)) (y c, o.subdiag c)
    simp only [abs_mul] at this
    rwa [mul_comm (o.mat _ _), mul_comm |o.mat _ _|, mul_comm (o.subdiag c), mul_comm |o.subdiag c|, add_comm (y c * _), add_comm (|y c| * _)]

/-- the three stages together -/
theorem flBk_stages (R : Rounding K) (he : R.eta = 0) {q : BkOrders} {d : ℕ} {o : BkObj K} (hq : BkOrdersSum q o.n d) {A D : ℕ → ℕ → K}
    (h : HoldsFactors o A D) (hd : DominantBlocks o D) (hG : (1 + R.u) ^ d < 2) (hg : ((1 + R.u) ^ d - 1) * 6 < 1) (b : ℕ → K) :
    let x := flBwdUnit R q.bwd o.n o.mat (flBkSolveD R q.diag o.n o.piv o.mat o.subdiag (flFwdUnit R q.fwd o.n o.mat b))
    ∀ i < o.n, |b i - ∑ j ∈ Finset.range o.n, (∑ k ∈ Finset.range o.n, ∑ k' ∈ Finset.range o.n,
        unitLower o.mat i k * D k k' * unitLower o.mat j k') * x j| ≤
      (1 / (1 - ((1 + R.u) ^ d - 1) * 6) * kap ((1 + R.u) ^ d) ^ 2 - 1) * ∑ j ∈ Finset.range o.n, absBk o D i j * |x j| := by
  intro x
  set n := o.n with hn
  set M := o.mat with hM
  set y := flFwdUnit R q.fwd n M b with hy
  set z := flBkSolveD R q.diag n o.piv M o.subdiag y with hz
  have hx' : x = flBwdUnit R q.bwd n M z := rfl
  set κ := kap ((1 + R.u) ^ d) with hκ
  have hκ1 : 1 ≤ κ := one_le_kap (one_le_G R d) hG
  set V := 1 / (1 - ((1 + R.u) ^ d - 1) * 6) with hVd
  have hg0 : 0 ≤ (1 + R.u) ^ d - 1 := by linarith [one_le_G R d]
  have hV : 1 ≤ V := by rw [hVd, le_div_iff₀ (by linarith)]; linarith
  have r1 : ∀ i < n, |b i - ∑ k ∈ Finset.range n, unitLower M i k * y k| ≤ (κ - 1) * ∑ k ∈ Finset.range n, |unitLower M i k| * |y k| := by
    intro i hi
    obtain ⟨w, hw1, hw2⟩ := flFwdUnit_spec R q.fwd n M b i hi
    have k1 := subst_err R he (hq.fwd i hi) (b i) (fun k => M i k) (fun k => y k) w hw1
    rw [← hw2] at k1
    rw [(unit_row n M y hi).1, (unit_row n M y hi).2]
    exact (flip_datum (one_le_G R d) hG (Finset.abs_sum_le_sum_abs _ _) k1).1
  have r2 : ∀ k < n, |y k - ∑ j ∈ Finset.range n, D k j * z j| ≤ (V - 1) * ∑ j ∈ Finset.range n, |D k j| * |z j| := by
    refine stored_inverse_err (S := storedBlocks o) (by norm_num) hg0 hg ?_ ?_ ?_ (flBkSolveD_err R he hq h hd y)
    · intro y k hk
      simp only [Finset.mul_sum]
      rw [Finset.sum_comm]
      have : ∀ j ∈ Finset.range n, ∑ i ∈ Finset.range n, D k i * (storedBlocks o i j * y j) = (if k = j then 1 else 0) * y j := by
        intro j hj
        rw [← h.inverse k hk j (Finset.mem_range.1 hj), Finset.sum_mul]
        exact Finset.sum_congr rfl fun i _ => by ring
      rw [Finset.sum_congr rfl this, sum_one hk]
      · rw [if_pos rfl, one_mul]
      · intro j _ hj; rw [if_neg (Ne.symm hj), zero_mul]
    · exact fun v hv k hk => (h.blockAt hd hk).bound hk hv
    · exact fun v hv k hk => (h.blockAt hd hk).inv.bound hk hv
  have r3 : ∀ k < n, |z k - ∑ j ∈ Finset.range n, unitLower M j k * x j| ≤ (κ - 1) * ∑ j ∈ Finset.range n, |unitLower M j k| * |x j| ∧
      |z k| ≤ κ * ∑ j ∈ Finset.range n, |unitLower M j k| * |x j| := by
    intro k hk
    obtain ⟨w, hw1, hw2⟩ := flBwdUnit_spec R q.bwd n M z k hk
    have k1 := subst_err R he (hq.bwd k hk) (z k) (fun m => M (k + 1 + m) k) (fun m => x (k + 1 + m)) (fun m => w (k + 1 + m))
      fun m hm => hw1 _ (by omega) (by omega)
    rw [← hw2] at k1
    rw [(unit_col n M x hk).1, (unit_col n M x hk).2]
    exact flip_datum (one_le_G R d) hG (Finset.abs_sum_le_sum_abs _ _) k1
  intro i hi
  let w : ℕ → K := fun k => ∑ j ∈ Finset.range n, |unitLower M j k| * |x j|
  let W : ℕ → K := fun k => ∑ k' ∈ Finset.range n, |D k k'| * w k'
  have e1 : ∑ j ∈ Finset.range n, absBk o D i j * |x j| = ∑ k ∈ Finset.range n, |unitLower M i k| * W k := by
    simp only [absBk, W, w, Finset.sum_mul, Finset.mul_sum]
    rw [Finset.sum_comm]
    refine Finset.sum_congr rfl fun k _ => ?_
    rw [Finset.sum_comm]
    exact Finset.sum_congr rfl fun k' _ => Finset.sum_congr rfl fun j _ => by ring
  have e2 : ∑ j ∈ Finset.range n, (∑ k ∈ Finset.range n, ∑ k' ∈ Finset.range n, unitLower M i k * D k k' * unitLower M j k') * x j =
      ∑ k ∈ Finset.range n, unitLower M i k * ∑ k' ∈ Finset.range n, D k k' * ∑ j ∈ Finset.range n, unitLower M j k' * x j := by
    simp only [Finset.sum_mul, Finset.mul_sum]
    rw [Finset.sum_comm]
    refine Finset.sum_congr rfl fun k _ => ?_
    rw [Finset.sum_comm]
    exact Finset.sum_congr rfl fun k' _ => Finset.sum_congr rfl fun j _ => by ring
  have s2 : ∀ k ∈ Finset.range n, |y k - ∑ k' ∈ Finset.range n, D k k' * ∑ j ∈ Finset.range n, unitLower M j k' * x j| ≤ (V * κ - 1) * W k ∧
      |y k| ≤ V * κ * W k := by
    intro k hk
    rw [Finset.mem_range] at hk
    have q1 := r2 k hk
    have q4 : ∑ j ∈ Finset.range n, |D k j| * |z j| ≤ κ * W k := by
      simp only [W]
      rw [Finset.mul_sum]
      refine Finset.sum_le_sum fun j hj => ?_
      have := mul_le_mul_of_nonneg_left (r3 j (Finset.mem_range.1 hj)).2 (abs_nonneg (D k j))
      simp only [w]; linarith
    have q5 : |∑ j ∈ Finset.range n, D k j * z j - ∑ k' ∈ Finset.range n, D k k' * ∑ j ∈ Finset.range n, unitLower M j k' * x j| ≤
        (κ - 1) * W k := by
      simp only [W]
      rw [← Finset.sum_sub_distrib, Finset.mul_sum]
      refine (Finset.abs_sum_le_sum_abs _ _).trans (Finset.sum_le_sum fun j hj => ?_)
      rw [← mul_sub, abs_mul]
      have := mul_le_mul_of_nonneg_left (r3 j (Finset.mem_range.1 hj)).1 (abs_nonneg (D k j))
      simp only [w]; linarith
    have q6 := abs_sub_le (y k) (∑ j ∈ Finset.range n, D k j * z j)
      (∑ k' ∈ Finset.range n, D k k' * ∑ j ∈ Finset.range n, unitLower M j k' * x j)
    have q7 := mul_le_mul_of_nonneg_left q4 (by linarith : 0 ≤ V - 1)
    have q8 : |y k| ≤ |y k - ∑ j ∈ Finset.range n, D k j * z j| + |∑ j ∈ Finset.range n, D k j * z j| := by
      simpa using abs_add_le (y k - ∑ j ∈ Finset.range n, D k j * z j) (∑ j ∈ Finset.range n, D k j * z j)
    have q9 : |∑ j ∈ Finset.range n, D k j * z j| ≤ ∑ j ∈ Finset.range n, |D k j| * |z j| :=
      (Finset.abs_sum_le_sum_abs _ _).trans (Finset.sum_le_sum fun j _ => (abs_mul _ _).le)
    constructor <;> linarith
  have f1 := r1 i hi
  rw [e1, e2]
  have f2 := abs_sub_le (b i) (∑ k ∈ Finset.range n, unitLower M i k * y k)
    (∑ k ∈ Finset.range n, unitLower M i k * ∑ k' ∈ Finset.range n, D k k' * ∑ j ∈ Finset.range n, unitLower M j k' * x j)
  have f3 : |∑ k ∈ Finset.range n, unitLower M i k * y k -
      ∑ k ∈ Finset.range n, unitLower M i k * ∑ k' ∈ Finset.range n, D k k' * ∑ j ∈ Finset.range n, unitLower M j k' * x j| ≤
      (V * κ - 1) * ∑ k ∈ Finset.range n, |unitLower M i k| * W k := by
    rw [← Finset.sum_sub_distrib, Finset.mul_sum]
    refine (Finset.abs_sum_le_sum_abs _ _).trans (Finset.sum_le_sum fun k hk => ?_)
    rw [← mul_sub, abs_mul]
    have := mul_le_mul_of_nonneg_left (s2 k hk).1 (abs_nonneg (unitLower M i k))
    linarith
  have f4 : ∑ k ∈ Finset.range n, |unitLower M i k| * |y k| ≤ V * κ * ∑ k ∈ Finset.range n, |unitLower M i k| * W k := by
    rw [Finset.mul_sum]
    refine Finset.sum_le_sum fun k hk => ?_
    have := mul_le_mul_of_nonneg_left (s2 k hk).2 (abs_nonneg (unitLower M i k))
    linarith
  have f5 := mul_le_mul_of_nonneg_left f4 (by linarith : 0 ≤ κ - 1)
  have e3 : (V * κ ^ 2 - 1) * ∑ k ∈ Finset.range n, |unitLower M i k| * W k =
      (κ - 1) * (V * κ * ∑ k ∈ Finset.range n, |unitLower M i k| * W k) +
      (V * κ - 1) * ∑ k ∈ Finset.range n, |unitLower M i k| * W k := by ring
  rw [e3]
  linarith

/-- the constant -/
theorem bk_coeff_small (R : Rounding K) {d : ℕ} (h : 50 * (d * R.u) ≤ 1) :
    (1 + R.u) ^ d < 2 ∧ ((1 + R.u) ^ d - 1) * 6 < 1 ∧
      1 / (1 - ((1 + R.u) ^ d - 1) * 6) * kap ((1 + R.u) ^ d) ^ 2 - 1 ≤ 12 * (d * R.u) := by
  have hs0 : 0 ≤ (d : K) * R.u := mul_nonneg (Nat.cast_nonneg _) R.u_nonneg
  have hb : 1 - (d : K) * R.u ≤ (1 - R.u) ^ d := by
    have := one_add_mul_le_pow (a := -R.u) (by linarith [R.u_lt_one]) d
    rw [← sub_eq_add_neg] at this
    linarith
  have hG := gpow_le_vpow R d
  set s := (d : K) * R.u
  have hG1 := one_le_G R d
  have hGs : (1 + R.u) ^ d ≤ 1 / (1 - s) := by
    refine hG.trans ?_
    rw [vfac, div_pow, one_pow]
    exact one_div_le_one_div_of_le (by linarith) hb
  generalize (1 + R.u) ^ d = G at *
  have h1s : 0 < 1 - s := by linarith
  rw [le_div_iff₀ h1s] at hGs
  have hGb : G ≤ 50 / 49 := by
    rw [le_div_iff₀ (by norm_num)]
    nlinarith
  have hG2 : G < 2 := by linarith
  refine ⟨hG2, by linarith, ?_⟩
  have p1 : 1 / (1 - (G - 1) * 6) ≤ (1 - s) / (1 - 7 * s) := by
    rw [div_le_div_iff₀ (by linarith) (by linarith)]
    nlinarith
  have p2 : kap G ≤ 1 / (1 - 2 * s) := by
    rw [kap, div_le_div_iff₀ (by linarith) (by linarith)]
    nlinarith
  have p3 : 0 ≤ kap G := by linarith [one_le_kap hG1 hG2]
  have p4 : 1 / (1 - (G - 1) * 6) * kap G ^ 2 ≤ (1 - s) / (1 - 7 * s) * (1 / (1 - 2 * s)) ^ 2 :=
    mul_le_mul p1 (pow_le_pow_left₀ p3 p2 2) (by positivity) (div_nonneg h1s.le (by linarith))
  have p5 : (1 - s) / (1 - 7 * s) * (1 / (1 - 2 * s)) ^ 2 ≤ 1 + 12 * s := by
    have q1 : 0 < 1 - 7 * s := by linarith
    have q2 : 0 < 1 - 2 * s := by linarith
    rw [div_pow, one_pow, div_mul_div_comm, mul_one, div_le_iff₀ (by positivity)]
    have : 0 ≤ s * (2 - 100 * s) := mul_nonneg hs0 (by linarith)
    have : 0 ≤ s ^ 3 * (356 - 336 * s) := mul_nonneg (by positivity) (by linarith)
    nlinarith
  linarith

end ProxNLP
