import Verif.Spec.BlockKind
import Mathlib.Tactic.Ring
import Mathlib.Tactic.Linarith
import Mathlib.Tactic.LinearCombination
import Mathlib.Algebra.BigOperators.Intervals

/-! Lemmas on loops and symbolic block matrices. -/

set_option linter.unusedSectionVars false
namespace ProxNLP

open BlockKind Spec

theorem forRange_ind {σ : Type} (P : ℕ → σ → Prop) (lo n : ℕ) (f : ℕ → σ → σ) (s : σ) (h0 : P 0 s)
    (hs : ∀ k s, k < n → P k s → P (k + 1) (f (lo + k) s)) : P n (forRange lo n f s) := by
  induction n with
  | zero => exact h0
  | succ n ih =>
    rw [forRange]
    exact hs n _ (by omega) (ih fun k s hk => hs k s (by omega))

theorem forRange_add (lo n : ℕ) (g : ℕ → ℕ) (s : ℕ) :
    forRange lo n (fun i acc => acc + g i) s = s + ∑ k ∈ Finset.range n, g (lo + k) := by
  induction n with
  | zero => simp [forRange]
  | succ n ih => rw [forRange, ih, Finset.sum_range_succ, add_assoc]

theorem forRange_congr {σ : Type} (lo n : ℕ) (f g : ℕ → σ → σ) (s : σ) (h : ∀ i s, f i s = g i s) :
    forRange lo n f s = forRange lo n g s := by
  induction n with
  | zero => rfl
  | succ n ih => rw [forRange, forRange, ih, h]

/-! ### The elimination step in closed form -/

theorem zeroRow_eq (n : ℕ) (K : ℕ → ℕ → BlockKind) :
    forRange 1 n (fun j K => setKind K 0 j zero) K = fun i j => if i = 0 ∧ 1 ≤ j ∧ j < n + 1 then zero else K i j := by
  refine forRange_ind (fun k S => S = fun i j => if i = 0 ∧ 1 ≤ j ∧ j < k + 1 then zero else K i j) 1 n _ K ?_ ?_
  · funext i j
    rw [if_neg (by omega)]
  · rintro k S hk rfl
    funext i j
    simp only [setKind]
    by_cases h : i = 0 ∧ j = 1 + k
    · rw [if_pos h, if_pos (by omega)]
    · rw [if_neg h]
      by_cases h2 : i = 0 ∧ 1 ≤ j ∧ j < k + 1
      · rw [if_pos h2, if_pos (by omega)]
      · rw [if_neg h2, if_neg (by omega)]

theorem belowDense_eq (n : ℕ) (K : ℕ → ℕ → BlockKind) :
    forRange 1 n (fun i K => setKind K i 0 (lltBelowDense (K i 0))) K =
      fun i j => if 1 ≤ i ∧ i < n + 1 ∧ j = 0 then lltBelowDense (K i 0) else K i j := by
  refine forRange_ind (fun k S => S = fun i j => if 1 ≤ i ∧ i < k + 1 ∧ j = 0 then lltBelowDense (K i 0) else K i j) 1 n _ K ?_ ?_
  · funext i j
    rw [if_neg (by omega)]
  · rintro k S hk rfl
    funext i j
    simp only [setKind]
    by_cases h : i = 1 + k ∧ j = 0
    · rw [if_pos h, if_pos (c := 1 ≤ i ∧ i < k + 1 + 1 ∧ j = 0) (by omega), if_neg (by omega), h.1]
    · rw [if_neg h]
      by_cases h2 : 1 ≤ i ∧ i < k + 1 ∧ j = 0
      · rw [if_pos h2, if_pos (by omega)]
      · rw [if_neg h2, if_neg (by omega)]

/-- the inner loop of the update -/
theorem lltInner_eq (m i : ℕ) (K : ℕ → ℕ → BlockKind) (hi : 1 ≤ i) :
    forRange (i + 1) m (fun j K =>
      let K := setKind K i j (add (K i j) (mul (K i 0) (trans (K j 0))))
      setKind K j i (trans (K i j))) K =
    fun a b =>
      if a = i ∧ i < b ∧ b < i + 1 + m then add (K i b) (mul (K i 0) (trans (K b 0)))
      else if b = i ∧ i < a ∧ a < i + 1 + m then trans (add (K i a) (mul (K i 0) (trans (K a 0))))
      else K a b := by
  refine forRange_ind (fun k S => S = fun a b =>
      if a = i ∧ i < b ∧ b < i + 1 + k then add (K i b) (mul (K i 0) (trans (K b 0)))
      else if b = i ∧ i < a ∧ a < i + 1 + k then trans (add (K i a) (mul (K i 0) (trans (K a 0))))
      else K a b) (i + 1) m _ K ?_ ?_
  · funext a b
    rw [if_neg (by omega), if_neg (by omega)]
  · rintro k S hk rfl
    funext a b
    simp only [setKind]
    grind

/-- closed form of the update -/
def lltUpdateSpec (n : ℕ) (K : ℕ → ℕ → BlockKind) : ℕ → ℕ → BlockKind := fun a b =>
  if 1 ≤ a ∧ a < n ∧ 1 ≤ b ∧ b < n then
    if a ≤ b then add (K a b) (mul (K a 0) (trans (K b 0))) else trans (add (K b a) (mul (K b 0) (trans (K a 0))))
  else K a b

theorem lltUpdate_eq (n : ℕ) (K : ℕ → ℕ → BlockKind) : lltUpdate (n + 1) K = lltUpdateSpec (n + 1) K := by
  have := forRange_ind (fun k S => S = fun a b =>
    if 1 ≤ a ∧ a < n + 1 ∧ 1 ≤ b ∧ b < n + 1 ∧ (a < 1 + k ∨ b < 1 + k) then
      if a ≤ b then add (K a b) (mul (K a 0) (trans (K b 0))) else trans (add (K b a) (mul (K b 0) (trans (K a 0))))
    else K a b) 1 n (fun i K =>
    forRange (i + 1) (n + 1 - (i + 1)) (fun j K =>
      let K := setKind K i j (add (K i j) (mul (K i 0) (trans (K j 0))))
      setKind K j i (trans (K i j)))
      (setKind K i i (add (K i i) (mul (K i 0) (trans (K i 0)))))) K ?_ ?_
  · unfold lltUpdate lltUpdateSpec
    rw [show n + 1 - 1 = n by omega, this]
    funext a b
    by_cases h : 1 ≤ a ∧ a < n + 1 ∧ 1 ≤ b ∧ b < n + 1
    · rw [if_pos h, if_pos (by omega)]
    · rw [if_neg h, if_neg (by omega)]
  · funext a b
    rw [if_neg (by omega)]
  · rintro k S hk rfl
    rw [lltInner_eq _ _ _ (by omega)]
    funext a b
    simp only [setKind]
    grind

/-- closed form of the column step -/
def colSpec (n : ℕ) (K : ℕ → ℕ → BlockKind) : ℕ → ℕ → BlockKind := fun i j =>
  if i = 0 ∧ 1 ≤ j ∧ j < n then zero
  else if K 0 0 = dense then
    if i = 0 ∧ j = 0 then triL else if 1 ≤ i ∧ i < n ∧ j = 0 then lltBelowDense (K i 0) else K i j
  else K i j

theorem lltColumn_eq (n : ℕ) (K : ℕ → ℕ → BlockKind) :
    lltColumn (n + 1) K = if K 0 0 = dense ∨ K 0 0 = diag then some (colSpec (n + 1) K) else none := by
  unfold lltColumn
  simp only [Nat.add_sub_cancel]
  rw [zeroRow_eq]
  have h00 : (if True ∧ 1 ≤ 0 ∧ 0 < n + 1 then zero else K 0 0) = K 0 0 := if_neg (by omega)
  simp only [h00]
  cases hk : K 0 0 with
  | zero => simp
  | triL => simp
  | triU => simp
  | dense =>
    simp only [true_or, if_true]
    rw [belowDense_eq]
    congr 1
    funext i j
    simp only [setKind, colSpec]
    grind
  | diag =>
    simp only [or_true, if_true]
    congr 1
    funext i j
    simp only [colSpec]
    grind

/-- one unfolding of `llt`, with the closed forms -/
theorem llt_succ (n : ℕ) (K : ℕ → ℕ → BlockKind) :
    llt (n + 1) K =
      if K 0 0 = dense ∨ K 0 0 = diag then
        ((llt n fun i j => lltUpdateSpec (n + 1) (colSpec (n + 1) K) (i + 1) (j + 1)).1,
          fun i j => if 1 ≤ i ∧ 1 ≤ j ∧ i < n + 1 ∧ j < n + 1 then
            (llt n fun i j => lltUpdateSpec (n + 1) (colSpec (n + 1) K) (i + 1) (j + 1)).2 (i - 1) (j - 1)
            else colSpec (n + 1) K i j)
      else (false, fun i j => if i = 0 ∧ 1 ≤ j ∧ j < n + 1 then zero else K i j) := by
  rw [llt, lltColumn_eq]
  by_cases h : K 0 0 = dense ∨ K 0 0 = diag
  · rw [if_pos h, if_pos h]
    simp only [lltUpdate_eq]
    congr 1
    funext i j
    by_cases h2 : 1 ≤ i ∧ 1 ≤ j ∧ i < n + 1 ∧ j < n + 1
    · rw [if_pos h2, if_pos h2]
    · rw [if_neg h2, if_neg h2, lltUpdateSpec, if_neg (by omega)]
  · rw [if_neg h, if_neg h]
    simp only [zeroRow_eq]

end ProxNLP
