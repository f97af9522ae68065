import Verif.Lemmas.BkPath
import Verif.Lemmas.DenseLdlt

/-! The loops over the pivots: conversion of the factor, the pieces of the solve. -/

set_option linter.unusedSectionVars false
namespace ProxNLP

variable {K : Type} [Field K] [LinearOrder K] [IsStrictOrderedRing K]

open Equiv (swap)

theorem forPivots_done {S : Type} (n : ℕ) (piv : ℕ → ℤ) (two one : ℕ → ℕ → S → S) (s : S) : forPivots n piv two one n s = s := by
  rw [forPivots, if_neg (by omega)]

theorem forPivots_one {S : Type} {n : ℕ} {piv : ℕ → ℤ} {k p : ℕ} (two one : ℕ → ℕ → S → S) (s : S) (hk : k ≤ p) (hp : p < n)
    (h : piv k = p) : forPivots n piv two one k s = forPivots n piv two one (k + 1) (one k p s) := by
  rw [forPivots, if_pos (by omega), if_neg (by omega), h, Int.toNat_natCast]

theorem forPivots_two {S : Type} {n : ℕ} {piv : ℕ → ℤ} {k p : ℕ} (two one : ℕ → ℕ → S → S) (s : S) (hk : k + 1 ≤ p) (hp : p < n)
    (h : piv k = -1 - (p : ℤ)) : forPivots n piv two one k s = forPivots n piv two one (k + 2) (two k p s) := by
  rw [forPivots, if_pos (by omega), if_pos (by omega), h, show (-1 - (-1 - (p : ℤ))).toNat = p by omega]

theorem swapRows_eq (m p q : ℕ) (a : ℕ → ℕ → K) (i c : ℕ) : swapRows m p q a i c = if c < m then a (swap p q i) c else a i c := by
  unfold swapRows
  rw [Equiv.swap_apply_def]
  split_ifs <;> rfl

theorem swapEntries_eq (p q : ℕ) (x : ℕ → K) (i : ℕ) : swapEntries p q x i = x (swap p q i) := by
  unfold swapEntries
  rw [Equiv.swap_apply_def]
  split_ifs <;> rfl

theorem PivPath.next {n : ℕ} {piv : ℕ → ℤ} {k : ℕ} (h : PivPath n piv k) (hk : notSecond piv k) (c : ℕ) (hc : k ≤ c) (hcn : c < n) :
    PivPath n piv (nextCol piv c) := by
  induction h with
  | done => omega
  | one k p h1 h2 h3 hr ih =>
    by_cases e : c = k
    · subst e
      rw [nextCol, twoAt_of_notSecond hk, h3, if_neg (by simp)]
      exact hr
    · exact ih (notSecond_one hk (by omega)) (by omega)
  | two k p h1 h2 h3 h4 hr ih =>
    have ht : twoAt piv k = true := by rw [twoAt_of_notSecond hk, h3]; simp; omega
    by_cases e : c = k
    · subst e
      rw [nextCol, if_pos ht]
      exact hr
    · by_cases e' : c = k + 1
      · subst e'
        rw [nextCol, if_neg (by simp [twoAt, ht])]
        exact hr
      · exact ih (notSecond_two hk (by omega)) (by omega)

/-- every column is a 1x1 block, or the first or second column of a 2x2 block within the matrix -/
theorem PivPath.cases {n : ℕ} {piv : ℕ → ℤ} {k : ℕ} (h : PivPath n piv k) (hk : notSecond piv k) (c : ℕ) (hc : k ≤ c) (hcn : c < n) :
    (twoAt piv c = false ∧ notSecond piv c) ∨ (twoAt piv c = true ∧ c + 1 < n) ∨ ∃ c0, c = c0 + 1 ∧ k ≤ c0 ∧ twoAt piv c0 = true := by
  induction h with
  | done => omega
  | one k p h1 h2 h3 hr ih =>
    by_cases e : c = k
    · subst e
      exact .inl ⟨by rw [twoAt_of_notSecond hk, h3]; simp, hk⟩
    · rcases ih (notSecond_one hk (by omega)) (by omega) with h | h | ⟨c0, e1, e2, e3⟩
      · exact .inl h
      · exact .inr (.inl h)
      · exact .inr (.inr ⟨c0, e1, by omega, e3⟩)
  | two k p h1 h2 h3 h4 hr ih =>
    have ht : twoAt piv k = true := by rw [twoAt_of_notSecond hk, h3]; simp; omega
    by_cases e : c = k
    · subst e
      exact .inr (.inl ⟨ht, by omega⟩)
    · by_cases e' : c = k + 1
      · subst e'
        exact .inr (.inr ⟨k, rfl, le_rfl, ht⟩)
      · rcases ih (notSecond_two hk (by omega)) (by omega) with h | h | ⟨c0, e1, e2, e3⟩
        · exact .inl h
        · exact .inr (.inl h)
        · exact .inr (.inr ⟨c0, e1, by omega, e3⟩)

theorem twoAt_lt {n : ℕ} {piv : ℕ → ℤ} (h : PivPath n piv 0) (c : ℕ) (hc : c < n) (ht : twoAt piv c = true) : c + 1 < n := by
  rcases h.cases trivial c (Nat.zero_le _) hc with ⟨h1, -⟩ | ⟨-, h1⟩ | ⟨c0, rfl, -, h1⟩
  · rw [ht] at h1; cases h1
  · exact h1
  · simp [twoAt, h1] at ht

theorem convert_spec {n : ℕ} {piv : ℕ → ℤ} {k : ℕ} (h : PivPath n piv k) (a : ℕ → ℕ → K) :
    let r := forPivots n piv (fun k p a => swapRows k (k + 1) p a) (fun k p a => swapRows k k p a) k a
    (∀ c < k, ∀ i, r i c = a (travPerm n piv k i) c) ∧
    (notSecond piv k → ∀ c, k ≤ c → c < n → ∀ i, r i c = a (travPerm n piv (nextCol piv c) i) c) := by
  induction h generalizing a with
  | done =>
    simp only [forPivots_done, travPerm_done]
    exact ⟨fun c _ i => rfl, fun _ c h1 h2 => by omega⟩
  | one k p h1 h2 h3 hr ih =>
    simp only [forPivots_one _ _ _ h1 h2 h3]
    obtain ⟨i1, i2⟩ := ih (swapRows k k p a)
    refine ⟨fun c hc i => ?_, fun hk c hc hcn i => ?_⟩
    · rw [i1 c (by omega), swapRows_eq, if_pos hc, travPerm_one h1 h2 h3]; rfl
    · by_cases e : c = k
      · subst e
        rw [i1 c (by omega), swapRows_eq, if_neg (by omega), nextCol, twoAt_of_notSecond hk, h3, if_neg (by simp)]
      · rw [i2 (notSecond_one hk (by omega)) c (by omega) hcn, swapRows_eq, if_neg (by omega)]
  | two k p h1 h2 h3 h4 hr ih =>
    simp only [forPivots_two _ _ _ h1 h2 h3]
    obtain ⟨i1, i2⟩ := ih (swapRows k (k + 1) p a)
    refine ⟨fun c hc i => ?_, fun hk c hc hcn i => ?_⟩
    · rw [i1 c (by omega), swapRows_eq, if_pos hc, travPerm_two h1 h2 h3]; rfl
    · have ht : twoAt piv k = true := by rw [twoAt_of_notSecond hk, h3]; simp; omega
      by_cases e : c < k + 2
      · rw [i1 c e, swapRows_eq, if_neg (by omega)]
        have : nextCol piv c = k + 2 := by
          obtain rfl | rfl : c = k ∨ c = k + 1 := by omega
          · rw [nextCol, if_pos ht]
          · rw [nextCol, if_neg (by simp [twoAt, ht])]
        rw [this]
      · rw [i2 (notSecond_two hk (by omega)) c (by omega) hcn, swapRows_eq, if_neg (by omega)]

theorem subdiag_spec {n : ℕ} {piv : ℕ → ℤ} {k : ℕ} (h : PivPath n piv k) (hk : notSecond piv k) (s : (ℕ → ℕ → K) × (ℕ → K)) :
    let r := forPivots n piv
      (fun k _ (s : (ℕ → ℕ → K) × (ℕ → K)) => (fun i c => if i = k + 1 ∧ c = k then 0 else s.1 i c,
        fun i => if i = k then s.1 (k + 1) k else if i = k + 1 then 0 else s.2 i))
      (fun k _ s => (s.1, fun i => if i = k then 0 else s.2 i)) k s
    (∀ i c, r.1 i c = if k ≤ c ∧ c < n ∧ twoAt piv c = true ∧ i = c + 1 then 0 else s.1 i c) ∧
    (∀ c, r.2 c = if k ≤ c ∧ c < n then (if twoAt piv c then s.1 (c + 1) c else 0) else s.2 c) := by
  induction h generalizing s with
  | done =>
    simp only [forPivots_done]
    refine ⟨fun i c => ?_, fun c => ?_⟩ <;> rw [if_neg (by omega)]
  | one k p h1 h2 h3 hr ih =>
    simp only [forPivots_one _ _ _ h1 h2 h3]
    obtain ⟨i1, i2⟩ := ih (notSecond_one hk (by omega)) (s.1, fun i => if i = k then 0 else s.2 i)
    have ht : twoAt piv k = false := by rw [twoAt_of_notSecond hk, h3]; simp
    refine ⟨fun i c => ?_, fun c => ?_⟩
    · rw [i1 i c]
      by_cases e : c = k
      · subst e; rw [if_neg (by omega), if_neg (by simp [ht])]
      · refine if_congr (by constructor <;> rintro ⟨a, b⟩ <;> exact ⟨by omega, b⟩) rfl rfl
    · rw [i2 c]
      by_cases e : c = k
      · subst e; rw [if_neg (by omega), if_pos (by omega), ht]; simp
      · simp only [e, if_false]
        exact if_congr (by omega) rfl rfl
  | two k p h1 h2 h3 h4 hr ih =>
    simp only [forPivots_two _ _ _ h1 h2 h3]
    obtain ⟨i1, i2⟩ := ih (notSecond_two hk (by omega)) (fun i c => if i = k + 1 ∧ c = k then 0 else s.1 i c,
      fun i => if i = k then s.1 (k + 1) k else if i = k + 1 then 0 else s.2 i)
    have ht : twoAt piv k = true := by rw [twoAt_of_notSecond hk, h3]; simp; omega
    have ht1 : twoAt piv (k + 1) = false := by simp [twoAt, ht]
    refine ⟨fun i c => ?_, fun c => ?_⟩
    · rw [i1 i c]
      by_cases e : c = k
      · subst e
        rw [if_neg (by omega)]
        simp only [and_true]
        exact if_congr ⟨fun h => ⟨le_rfl, by omega, ht, h⟩, fun h => h.2.2.2⟩ rfl rfl
      · by_cases e' : c = k + 1
        · subst e'
          rw [if_neg (by omega), if_neg (by simp [ht1])]
          simp
        · simp only [e, and_false, if_false]
          refine if_congr (by constructor <;> rintro ⟨a, b⟩ <;> exact ⟨by omega, b⟩) rfl rfl
    · rw [i2 c]
      by_cases e : c = k
      · subst e; rw [if_neg (by omega), if_pos (by omega), ht]; simp
      · by_cases e' : c = k + 1
        · subst e'; rw [if_neg (by omega), if_pos (by omega), ht1]; simp
        · simp only [e, e', if_false, and_false]
          exact if_congr (by omega) rfl rfl

/-- the factor stored in the object after a successful factorisation -/
theorem bkConvert_spec {n : ℕ} {piv : ℕ → ℤ} (h : PivPath n piv 0) (M : ℕ → ℕ → K) (e0 : ℕ → K) :
    (∀ c < n, ∀ i, bkConvert n piv (bkSubdiag n piv M e0).1 i c = convMat n piv M i c) ∧
    (∀ c < n, (bkSubdiag n piv M e0).2 c = if twoAt piv c then M (c + 1) c else 0) := by
  obtain ⟨s1, s2⟩ := subdiag_spec h trivial (M, e0)
  constructor
  · intro c hc i
    have := (convert_spec h (bkSubdiag n piv M e0).1).2 trivial c (Nat.zero_le _) hc i
    rw [bkConvert, this]
    have e1 := s1 (travPerm n piv (nextCol piv c) i) c
    simp only at e1
    rw [bkSubdiag, e1, convMat]
    refine if_congr ?_ rfl rfl
    constructor
    · rintro ⟨-, -, h1, h2⟩
      refine ⟨h1, (travPerm n piv (nextCol piv c)).injective ?_⟩
      rw [h2, (travPerm_fix (h.next trivial c (Nat.zero_le _) hc)).1 (c + 1) (by rw [nextCol, if_pos h1]; omega)]
    · rintro ⟨h1, h2⟩
      refine ⟨Nat.zero_le _, hc, h1, ?_⟩
      rw [h2, (travPerm_fix (h.next trivial c (Nat.zero_le _) hc)).1 (c + 1) (by rw [nextCol, if_pos h1]; omega)]
  · intro c hc
    have := s2 c
    simp only at this
    rw [bkSubdiag, this, if_pos ⟨Nat.zero_le _, hc⟩]

/-- the first loop of the solve applies the permutation -/
theorem solvePerm_spec {n : ℕ} {piv : ℕ → ℤ} {k : ℕ} (h : PivPath n piv k) (x : ℕ → K) (i : ℕ) :
    forPivots n piv (fun k p x => swapEntries (k + 1) p x) (fun k p x => swapEntries k p x) k x i = x (travPerm n piv k i) := by
  induction h generalizing x with
  | done => rw [forPivots_done, travPerm_done]; rfl
  | one k p h1 h2 h3 hr ih => rw [forPivots_one _ _ _ h1 h2 h3, ih, swapEntries_eq, travPerm_one h1 h2 h3]; rfl
  | two k p h1 h2 h3 h4 hr ih => rw [forPivots_two _ _ _ h1 h2 h3, ih, swapEntries_eq, travPerm_two h1 h2 h3]; rfl

/-- the last loop of the solve applies its inverse -/
theorem solveBack_spec {n : ℕ} {piv : ℕ → ℤ} {k : ℕ} (h : PivPath n piv k) (x : ℕ → K) :
    bkSolveBack piv n x = bkSolveBack piv k fun i => x ((travPerm n piv k)⁻¹ i) := by
  induction h generalizing x with
  | done => rw [travPerm_done]; rfl
  | one k p h1 h2 h3 hr ih =>
    rw [ih, bkSolveBack]
    simp only [show 0 < k + 1 by omega, dif_pos, Nat.add_sub_cancel]
    rw [if_neg (by omega), h3, Int.toNat_natCast]
    congr 1
    funext i
    rw [swapEntries_eq, travPerm_one h1 h2 h3, mul_inv_rev, Equiv.swap_inv]; rfl
  | two k p h1 h2 h3 h4 hr ih =>
    rw [ih, bkSolveBack]
    simp only [show 0 < k + 2 by omega, dif_pos, show k + 2 - 1 = k + 1 by omega]
    rw [if_pos (by omega), h4, show (-1 - (-1 - (p : ℤ))).toNat = p by omega, show k + 1 - 1 = k by omega]
    congr 1
    funext i
    rw [swapEntries_eq, travPerm_two h1 h2 h3, mul_inv_rev, Equiv.swap_inv]; rfl

/-- the loop multiplying with the stored inverse of `D` -/
theorem bkSolveD_spec {n : ℕ} {piv : ℕ → ℤ} (mat : ℕ → ℕ → K) (e : ℕ → K) {k : ℕ} (h : PivPath n piv k) (hk : notSecond piv k) (x : ℕ → K) :
    let r := forPivots n piv
      (fun k _ x i => if i = k then x k * mat k k + x (k + 1) * e k
        else if i = k + 1 then x (k + 1) * mat (k + 1) (k + 1) + x k * e k else x i)
      (fun k _ x i => if i = k then x k * mat k k else x i) k x
    (∀ i < k, r i = x i) ∧
    (∀ c, k ≤ c → c < n → twoAt piv c = false → notSecond piv c → r c = x c * mat c c) ∧
    (∀ c, k ≤ c → c < n → twoAt piv c = true →
      r c = x c * mat c c + x (c + 1) * e c ∧ r (c + 1) = x (c + 1) * mat (c + 1) (c + 1) + x c * e c) := by
  induction h generalizing x with
  | done =>
    simp only [forPivots_done]
    exact ⟨fun i _ => trivial, fun c h1 h2 => by omega, fun c h1 h2 => by omega⟩
  | one k p h1 h2 h3 hr ih =>
    simp only [forPivots_one _ _ _ h1 h2 h3]
    obtain ⟨i1, i2, i3⟩ := ih (notSecond_one hk (by omega)) fun i => if i = k then x k * mat k k else x i
    have ht : twoAt piv k = false := by rw [twoAt_of_notSecond hk, h3]; simp
    refine ⟨fun i hi => ?_, fun c hc hcn a1 a2 => ?_, fun c hc hcn a1 => ?_⟩
    · rw [i1 i (by omega), if_neg (by omega)]
    · by_cases ec : c = k
      · subst ec; rw [i1 c (by omega), if_pos rfl]
      · rw [i2 c (by omega) hcn a1 a2, if_neg ec]
    · have ec : c ≠ k := by rintro rfl; rw [ht] at a1; cases a1
      obtain ⟨b1, b2⟩ := i3 c (by omega) hcn a1
      rw [b1, b2, if_neg ec, if_neg (by omega)]
      exact ⟨rfl, rfl⟩
  | two k p h1 h2 h3 h4 hr ih =>
    simp only [forPivots_two _ _ _ h1 h2 h3]
    obtain ⟨i1, i2, i3⟩ := ih (notSecond_two hk (by omega)) fun i => if i = k then x k * mat k k + x (k + 1) * e k
        else if i = k + 1 then x (k + 1) * mat (k + 1) (k + 1) + x k * e k else x i
    have ht : twoAt piv k = true := by rw [twoAt_of_notSecond hk, h3]; simp; omega
    have ht1 : twoAt piv (k + 1) = false := by simp [twoAt, ht]
    refine ⟨fun i hi => ?_, fun c hc hcn a1 a2 => ?_, fun c hc hcn a1 => ?_⟩
    · rw [i1 i (by omega), if_neg (by omega), if_neg (by omega)]
    · have ec : c ≠ k := by rintro rfl; rw [ht] at a1; cases a1
      have ec1 : c ≠ k + 1 := by rintro rfl; simp only [notSecond] at a2; rw [ht] at a2; cases a2
      rw [i2 c (by omega) hcn a1 a2, if_neg ec, if_neg ec1]
    · by_cases ec : c = k
      · subst ec
        rw [i1 c (by omega), i1 (c + 1) (by omega), if_pos rfl, if_neg (by omega), if_pos rfl]
        exact ⟨rfl, rfl⟩
      · have ec1 : c ≠ k + 1 := by rintro rfl; rw [ht1] at a1; cases a1
        obtain ⟨b1, b2⟩ := i3 c (by omega) hcn a1
        rw [b1, b2, if_neg ec, if_neg ec1, if_neg (by omega), if_neg (by omega)]
        exact ⟨rfl, rfl⟩

/-- multiplying with `D` undoes the loop -/
theorem blockDiag_mul {n : ℕ} {piv : ℕ → ℤ} {M D : ℕ → ℕ → K} (h : PivPath n piv 0) (hD : BkBlockDiag n piv M D 0) (y z : ℕ → K)
    (h1 : ∀ c < n, twoAt piv c = false → notSecond piv c → z c = y c * M c c)
    (h2 : ∀ c < n, twoAt piv c = true →
      z c = y c * M c c + y (c + 1) * M (c + 1) c ∧ z (c + 1) = y (c + 1) * M (c + 1) (c + 1) + y c * M (c + 1) c)
    (c : ℕ) (hc : c < n) : ∑ c' ∈ Finset.range n, D c c' * z c' = y c := by
  have hz0 : ∀ i j, i < n → j < n → i ≠ j → ¬ (twoAt piv i = true ∧ j = i + 1) → ¬ (twoAt piv j = true ∧ i = j + 1) → D i j = 0 := by
    intro i j hi hj hne a1 a2
    rcases lt_or_gt_of_ne hne with h | h
    · exact hD.zero i j (Nat.zero_le _) h hj a1
    · rw [hD.sym i j (Nat.zero_le _) hi (Nat.zero_le _) hj]
      exact hD.zero j i (Nat.zero_le _) h hi a2
  have pair : ∀ r c, r < n → c + 1 < n → (∀ j < n, j ≠ c → j ≠ c + 1 → D r j = 0) →
      ∑ c' ∈ Finset.range n, D r c' * z c' = D r c * z c + D r (c + 1) * z (c + 1) := by
    intro r c hr hc hz
    rw [Finset.sum_eq_add_of_mem c (c + 1) (Finset.mem_range.2 (by omega)) (Finset.mem_range.2 hc) (by omega)]
    rintro j hj ⟨j1, j2⟩
    rw [hz j (Finset.mem_range.1 hj) j1 j2, zero_mul]
  rcases h.cases trivial c (Nat.zero_le _) hc with ⟨a1, a2⟩ | ⟨a1, a2⟩ | ⟨c0, rfl, -, a1⟩
  · obtain ⟨b1, b2⟩ := hD.single c (Nat.zero_le _) hc a1 a2
    rw [Finset.sum_eq_single c]
    · rw [h1 c hc a1 a2, b2]; field_simp
    · intro j hj hne
      rw [hz0 c j hc (Finset.mem_range.1 hj) (Ne.symm hne) (by simp [a1]) ?_, zero_mul]
      rintro ⟨e1, rfl⟩
      simp only [notSecond] at a2; rw [e1] at a2; cases a2
    · intro hn; exact absurd (Finset.mem_range.2 hc) hn
  · obtain ⟨b0, b1, b2, b3⟩ := hD.double c (Nat.zero_le _) a2 a1
    rw [pair c c hc a2]
    · obtain ⟨g1, g2⟩ := h2 c hc a1
      rw [g1, g2, b1, b2, b3, hD.sym c (c + 1) (Nat.zero_le _) hc (Nat.zero_le _) a2]
      have := b0.ne
      generalize hd : D c c * D (c + 1) (c + 1) - D (c + 1) c * D (c + 1) c = det at *
      field_simp
      rw [← hd]; ring
    · intro j hj j1 j2
      refine hz0 c j hc hj (Ne.symm j1) (fun e => j2 e.2) ?_
      rintro ⟨e1, rfl⟩
      simp [twoAt, e1] at a1
  · obtain ⟨b0, b1, b2, b3⟩ := hD.double c0 (Nat.zero_le _) hc a1
    rw [pair (c0 + 1) c0 hc hc]
    · obtain ⟨g1, g2⟩ := h2 c0 (by omega) a1
      rw [g1, g2, b1, b2, b3]
      have := b0.ne
      generalize hd : D c0 c0 * D (c0 + 1) (c0 + 1) - D (c0 + 1) c0 * D (c0 + 1) c0 = det at *
      field_simp
      rw [← hd]; ring
    · intro j hj j1 j2
      refine hz0 (c0 + 1) j hc hj (Ne.symm j2) ?_ ?_
      · rintro ⟨e1, -⟩
        simp [twoAt, a1] at e1
      · rintro ⟨-, e⟩; omega

end ProxNLP
