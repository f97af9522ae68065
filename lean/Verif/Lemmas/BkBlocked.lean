import Verif.Lemmas.BkObj

/-! The blocked Bunch-Kaufman loop performs the same pivot steps. -/

set_option linter.unusedSectionVars false
namespace ProxNLP

variable {K : Type} [Field K] [LinearOrder K] [IsStrictOrderedRing K]

open Equiv (swap)
open Relation (ReflTransGen)

theorem chain_le {alpha : K} {n : ℕ} {piv : ℕ → ℤ} {M : ℕ → ℕ → K} {x y} (h : ReflTransGen (BkOne alpha n piv M) x y) : x.1 ≤ y.1 := by
  induction h with
  | refl => exact le_rfl
  | tail _ h1 ih => have := h1.lt; omega

theorem chain_congr {alpha : K} {n : ℕ} {piv piv' : ℕ → ℤ} {M M' : ℕ → ℕ → K} {x y} (h : ReflTransGen (BkOne alpha n piv M) x y)
    (hp : ∀ c, x.1 ≤ c → c < y.1 → piv' c = piv c) (hM : ∀ c, x.1 ≤ c → c < y.1 → ∀ i, c ≤ i → i < n → M' i c = M i c) :
    ReflTransGen (BkOne alpha n piv' M') x y := by
  induction h with
  | refl => exact .refl
  | tail h0 h1 ih =>
    have h2 := h1.lt
    have h3 := chain_le h0
    refine .tail (ih (fun c a b => hp c a (by omega)) fun c a b => hM c a (by omega)) (h1.congr ?_ ?_)
    · exact fun c a b => hp c (by omega) b
    · exact fun c a b => hM c (by omega) b

theorem chain_sym {alpha : K} {n : ℕ} {piv : ℕ → ℤ} {M : ℕ → ℕ → K} {x y} (h : ReflTransGen (BkOne alpha n piv M) x y) (hs : SymOn x.1 n x.2) :
    SymOn y.1 n y.2 := by
  induction h with
  | refl => exact hs
  | tail _ h1 ih => exact h1.sym ih

theorem swap_swap_app (p q i : ℕ) : swap p q (swap p q i) = i := by
  rw [← Equiv.trans_apply, Equiv.swap_swap]; rfl

/-! ### undoing the row interchanges -/

theorem bkUndo_congr (piv piv' : ℕ → ℤ) (j : ℕ) (a a' : ℕ → ℕ → K) (hp : ∀ i ≤ j, piv i = piv' i) (c : ℕ) (h : ∀ i, a i c = a' i c) (i : ℕ) :
    bkUndo piv j a i c = bkUndo piv' j a' i c := by
  induction j using Nat.strong_induction_on generalizing a a' i with
  | _ j ih =>
    rw [bkUndo, bkUndo, hp j le_rfl]
    simp only
    generalize hj' : (if piv' j < 0 then j - 1 else j) = j'
    have hle : j' ≤ j := by rw [← hj']; split <;> omega
    generalize (if piv' j < 0 then (-1 - piv' j).toNat else (piv' j).toNat) = jp
    split_ifs with h1 h2 h3
    · exact h i
    · rw [swapRows_eq, swapRows_eq, h, h]
    · exact h i
    · refine ih (j' - 1) (by omega) _ _ (fun i hi => hp i (by omega)) (fun i => ?_) i
      rw [swapRows_eq, swapRows_eq, h, h]
    · exact ih (j' - 1) (by omega) _ _ (fun i hi => hp i (by omega)) h i

theorem bkUndo_right (piv : ℕ → ℤ) (j : ℕ) (a : ℕ → ℕ → K) (i c : ℕ) (hc : j ≤ c) : bkUndo piv j a i c = a i c := by
  induction j using Nat.strong_induction_on generalizing a with
  | _ j ih =>
    rw [bkUndo]
    simp only
    generalize hj' : (if piv j < 0 then j - 1 else j) = j'
    have hle : j' ≤ j := by rw [← hj']; split <;> omega
    generalize (if piv j < 0 then (-1 - piv j).toNat else (piv j).toNat) = jp
    split_ifs with h1 h2 h3
    · rfl
    · rw [swapRows_eq, if_neg (by omega)]
    · rfl
    · rw [ih (j' - 1) (by omega) _ (by omega), swapRows_eq, if_neg (by omega)]
    · exact ih (j' - 1) (by omega) _ (by omega)

theorem bkUndo_zero (piv : ℕ → ℤ) (a : ℕ → ℕ → K) : bkUndo piv 0 a = a := by
  rw [bkUndo]
  simp

theorem swapRows_self (m p : ℕ) (a : ℕ → ℕ → K) : swapRows m p p a = a := by
  funext i c; rw [swapRows_eq]; simp

theorem swapRows_zero (p q : ℕ) (a : ℕ → ℕ → K) : swapRows 0 p q a = a := by
  funext i c; rw [swapRows_eq]; simp

theorem bkUndo_one (piv : ℕ → ℤ) (k p : ℕ) (a : ℕ → ℕ → K) (h : piv k = p) : bkUndo piv k a = bkUndo piv (k - 1) (swapRows k p k a) := by
  conv_lhs => rw [bkUndo]
  simp only [h, show ¬ ((p : ℤ) < 0) by omega, if_false, Int.toNat_natCast]
  by_cases hk : k = 0
  · subst hk
    simp only [dif_pos, swapRows_zero, Nat.zero_sub, bkUndo_zero]
  · rw [dif_neg hk]
    have e : (if p ≠ k then swapRows (k - 1 + 1) p k a else a) = swapRows k p k a := by
      split_ifs with h1
      · rw [show k - 1 + 1 = k by omega]
      · rw [not_not] at h1; subst h1; rw [swapRows_self]
    rw [e]
    split_ifs with h1
    · rw [h1, bkUndo_zero]
    · rfl

theorem bkUndo_two (piv : ℕ → ℤ) (k p : ℕ) (a : ℕ → ℕ → K) (h : piv (k + 1) = -1 - (p : ℤ)) :
    bkUndo piv (k + 1) a = bkUndo piv (k - 1) (swapRows k p (k + 1) a) := by
  conv_lhs => rw [bkUndo]
  simp only [h, show (-1 - (p : ℤ)) < 0 by omega, if_true, show (-1 - (-1 - (p : ℤ))).toNat = p by omega, Nat.add_sub_cancel]
  by_cases hk : k = 0
  · subst hk
    simp only [dif_pos, swapRows_zero, Nat.zero_sub, bkUndo_zero]
  · rw [dif_neg hk]
    have e : (if p ≠ k + 1 then swapRows (k - 1 + 1) p (k + 1) a else a) = swapRows k p (k + 1) a := by
      split_ifs with h1
      · rw [show k - 1 + 1 = k by omega]
      · rw [not_not] at h1; subst h1; rw [swapRows_self]
    rw [e]
    split_ifs with h1
    · rw [h1, bkUndo_zero]
    · rfl

/-! ### one pass -/

/-- trailing matrix represented by the blocked state before column `k` -/
def bkVirt (k : ℕ) (a w : ℕ → ℕ → K) : ℕ → ℕ → K := fun i j => symRow a i j - ∑ c ∈ Finset.range k, a i c * w j c

theorem bkBlockChoose_spec (alpha : K) (h0 : 0 < alpha) (n k : ℕ) (hk : k < n) (a w : ℕ → ℕ → K) (hs : SymOn k n (bkVirt k a w)) :
    match bkBlockChoose alpha n k a w with
    | none => bkChoose alpha n k (fun i => bkVirt k a w i k) (bkVirt k a w) = none
    | some (kp, two, w') => bkChoose alpha n k (fun i => bkVirt k a w i k) (bkVirt k a w) = some (kp, two) ∧
        (∀ i c, c < k → w' i c = w i c) ∧
        (two = false → ∀ i, k ≤ i → i < n → w' i k = bkVirt k a w i kp) ∧
        (two = true → ∀ i, k ≤ i → i < n → w' i k = bkVirt k a w i k ∧ w' i (k + 1) = bkVirt k a w i kp) := by
  have hcol : ∀ i, k ≤ i → i < n → bkLoadCol n k a w i k = bkVirt k a w i k := by
    intro i hi hin
    unfold bkLoadCol bkVirt symRow
    rw [if_pos ⟨rfl, hi, hin⟩, if_pos hi]
  have hleft : ∀ i c, c ≠ k → bkLoadCol n k a w i c = w i c := by
    intro i c hc
    unfold bkLoadCol
    rw [if_neg (by omega)]
  have hrow : ∀ r i, k ≤ i → i < n → bkLoadRow n k r a (bkLoadCol n k a w) i (k + 1) = bkVirt k a w i r := by
    intro r i hi hin
    unfold bkLoadRow bkVirt symRow
    rw [if_pos ⟨rfl, hi, hin⟩]
    congr 1
    · by_cases h : i < r
      · rw [if_pos h, if_neg (by omega)]
      · rw [if_neg h, if_pos (by omega)]
    · refine Finset.sum_congr rfl fun j hj => ?_
      rw [hleft r j (by have := Finset.mem_range.1 hj; omega)]
  have hother : ∀ r i c, c ≠ k + 1 → bkLoadRow n k r a (bkLoadCol n k a w) i c = bkLoadCol n k a w i c := by
    intro r i c hc
    unfold bkLoadRow
    rw [if_neg (by omega)]
  obtain ⟨c0, c1, c2⟩ := bkColMax_spec n k (fun i => bkVirt k a w i k) hk
  have ecm : bkColMax n k (fun i => bkLoadCol n k a w i k) = bkColMax n k (fun i => bkVirt k a w i k) := bkColMax_congr n k _ _ hcol
  unfold bkBlockChoose bkChoose
  simp only
  rw [ecm, hcol k le_rfl hk]
  generalize hcm : bkColMax n k (fun i => bkVirt k a w i k) = cm at *
  obtain ⟨imax, colmax⟩ := cm
  simp only at c0 c1 c2 ⊢
  by_cases a1 : max |bkVirt k a w k k| colmax = 0
  · rw [if_pos a1, if_pos a1]
  · rw [if_neg a1, if_neg a1]
    by_cases a2 : colmax * alpha ≤ |bkVirt k a w k k|
    · rw [if_pos a2, if_pos a2]
      exact ⟨rfl, fun i c hc => hleft i c (by omega), fun _ i hi hin => hcol i hi hin, by simp⟩
    · rw [if_neg a2, if_neg a2]
      have hcp : 0 < colmax := by
        by_contra hc
        have hz : colmax = 0 := le_antisymm (not_lt.1 hc) c0
        rw [hz, zero_mul] at a2
        exact a2 (abs_nonneg _)
      obtain ⟨d1, d2, -⟩ := c2 hcp
      have er : bkRowMax n k imax (fun i => bkLoadRow n k imax a (bkLoadCol n k a w) i (k + 1)) =
          bkRowMax n k imax (bkVirt k a w imax) :=
        bkRowMax_congr n k imax _ _ (fun i hi hin => by rw [hrow imax i hi hin, hs i imax hi hin d1.le d2]) d1.le d2
      rw [er, hrow imax imax d1.le d2]
      by_cases a3 : alpha * colmax * (colmax / bkRowMax n k imax (bkVirt k a w imax)) ≤ |bkVirt k a w k k|
      · rw [if_pos a3, if_pos a3]
        refine ⟨rfl, fun i c hc => ?_, fun _ i hi hin => ?_, by simp⟩
        · rw [hother imax i c (by omega), hleft i c (by omega)]
        · rw [hother imax i k (by omega), hcol i hi hin]
      · rw [if_neg a3, if_neg a3]
        by_cases a4 : alpha * bkRowMax n k imax (bkVirt k a w imax) ≤ |bkVirt k a w imax imax|
        · rw [if_pos a4, if_pos a4]
          refine ⟨rfl, fun i c hc => ?_, fun _ i hi hin => ?_, by simp⟩
          · simp only
            rw [if_neg (by omega), hother imax i c (by omega), hleft i c (by omega)]
          · simp only
            rw [if_pos ⟨trivial, hi, hin⟩, hrow imax i hi hin]
        · rw [if_neg a4, if_neg a4]
          refine ⟨rfl, fun i c hc => ?_, by simp, fun _ i hi hin => ⟨?_, hrow imax i hi hin⟩⟩
          · rw [hother imax i c (by omega), hleft i c (by omega)]
          · rw [hother imax i k (by omega), hcol i hi hin]

theorem bkBlockSwap_spec (n k : ℕ) (two : Bool) (kp : ℕ) (a w : ℕ → ℕ → K) (kk : ℕ) (hkk : kk = if two then k + 1 else k)
    (hk : kk ≤ kp) (hkp : kp < n) :
    (∀ i c, c < k → (bkBlockSwap n k two kp a w).1 i c = a (swap kk kp i) c) ∧
    (∀ i j, kk < j → j ≤ i → i < n → (bkBlockSwap n k two kp a w).1 i j = symRow a (swap kk kp i) (swap kk kp j)) ∧
    (∀ i c, c ≤ kk → (bkBlockSwap n k two kp a w).2 i c = w (swap kk kp i) c) := by
  have hkk1 : k ≤ kk := by rw [hkk]; split <;> omega
  unfold bkBlockSwap
  simp only [← hkk]
  by_cases e : kp = kk
  · subst e
    simp only [if_true, Equiv.swap_self, Equiv.refl_apply]
    refine ⟨fun i c _ => trivial, fun i j h1 h2 h3 => ?_, fun i c _ => trivial⟩
    simp [symRow, h2]
  · simp only [if_neg e]
    refine ⟨fun i c hc => ?_, fun i j h1 h2 h3 => ?_, fun i c hc => ?_⟩
    · rw [swapRows_eq, if_pos hc]
      unfold bkBlockCopy
      rw [if_neg (by omega), if_neg (by omega), if_neg (by omega)]
    · rw [swapRows_eq, if_neg (by omega)]
      simp only [bkBlockCopy, Equiv.swap_apply_def, symRow]
      grind
    · rw [swapRows_eq, if_pos (by omega)]

/-- a pass of the blocked loop is a pivot step of the represented matrices, and leaves the undone columns alone -/
theorem bkBlockStep_spec {alpha : K} (n k : ℕ) (two : Bool) (kp : ℕ) (s : BkBlockSt K) (w' : ℕ → ℕ → K)
    (hs : SymOn k n (bkVirt k s.a s.w))
    (hk : (if two then k + 1 else k) ≤ kp) (hkp : kp < n)
    (h1 : two = false → bkVirt k s.a s.w kp kp ≠ 0)
    (h2 : two = true → bkVirt k s.a s.w kp k ≠ 0 ∧
      bkVirt k s.a s.w k k * bkVirt k s.a s.w kp kp - bkVirt k s.a s.w kp k * bkVirt k s.a s.w kp k < 0)
    (h3 : two = false → BkGood1 alpha n k kp (bkVirt k s.a s.w)) (h4 : two = true → BkGood2 alpha n k kp (bkVirt k s.a s.w))
    (w0 : ∀ i c, c < k → w' i c = s.w i c)
    (w1 : two = false → ∀ i, k ≤ i → i < n → w' i k = bkVirt k s.a s.w i kp)
    (w2 : two = true → ∀ i, k ≤ i → i < n → w' i k = bkVirt k s.a s.w i k ∧ w' i (k + 1) = bkVirt k s.a s.w i kp) :
    let s' := bkBlockStep n k two kp w' s
    let k' := if two then k + 2 else k + 1
    BkOne alpha n s'.piv (bkUndo s'.piv (k' - 1) s'.a) (k, bkVirt k s.a s.w) (k', bkVirt k' s'.a s'.w) ∧
    (∀ c < k, s'.piv c = s.piv c) ∧ (∀ c, k' ≤ c → s'.piv c = s.piv c) ∧
    (∀ c < k, ∀ i, bkUndo s'.piv (k' - 1) s'.a i c = bkUndo s.piv (k - 1) s.a i c) := by
  generalize hV : bkVirt k s.a s.w = V at *
  have hVe : ∀ i j, V i j = symRow s.a i j - ∑ c ∈ Finset.range k, s.a i c * s.w j c := by intro i j; rw [← hV]; rfl
  obtain ⟨g1, g2, g3⟩ := bkBlockSwap_spec n k two kp s.a w' _ rfl hk hkp
  have hpivc : ∀ c < k, (bkBlockStep n k two kp w' s).piv c = s.piv c := by
    intro c hc
    simp only [bkBlockStep, bkSetPiv]
    cases two
    · simp only [Bool.false_eq_true, if_false]; rw [if_neg (by omega)]
    · simp only [if_true]; rw [if_neg (by omega)]
  cases two
  · simp only [Bool.false_eq_true, if_false] at hk g1 g2 g3 ⊢
    have hne := h1 rfl
    have w1 := w1 rfl
    generalize hA : (bkBlockSwap n k false kp s.a w').1 = A at *
    generalize hW : (bkBlockSwap n k false kp s.a w').2 = W at *
    have hWk : ∀ i, k ≤ i → i < n → W i k = V (swap k kp i) kp := by
      intro i hi hin
      obtain ⟨m1, m2⟩ := swap_mem (n := n) le_rfl (by omega) hk hkp hi hin
      rw [g3 i k le_rfl, w1 _ m1 m2]
    have hWkk : W k k = V kp kp := by rw [hWk k le_rfl (by omega), Equiv.swap_apply_left]
    have ea : (bkBlockStep n k false kp w' s).a = bkBlockElim1 n k A W := by simp [bkBlockStep, hA, hW]
    have ew : (bkBlockStep n k false kp w' s).w = W := by simp [bkBlockStep, hW]
    have ek : ∀ i, k < i → i < n → bkBlockElim1 n k A W i k = V (swap k kp i) kp / V kp kp := by
      intro i hi hin
      unfold bkBlockElim1
      simp only
      rw [if_pos ⟨trivial, hi, hin⟩, if_neg (by omega), if_pos ⟨trivial, hi.le, hin⟩, hWk i hi.le hin, hWkk]
      ring
    have ekk : bkBlockElim1 n k A W k k = 1 / V kp kp := by
      unfold bkBlockElim1
      simp only
      rw [if_neg (by omega), if_pos ⟨trivial, trivial⟩, hWkk]
    have eo : ∀ i c, c ≠ k → bkBlockElim1 n k A W i c = A i c := by
      intro i c hc
      unfold bkBlockElim1
      simp only
      rw [if_neg (by omega), if_neg (by omega), if_neg (by omega)]
    have hpk : (bkBlockStep n k false kp w' s).piv k = kp := by simp [bkBlockStep, bkSetPiv]
    have hu : bkUndo (bkBlockStep n k false kp w' s).piv (k + 1 - 1) (bkBlockStep n k false kp w' s).a =
        bkUndo (bkBlockStep n k false kp w' s).piv (k - 1) (swapRows k kp k (bkBlockElim1 n k A W)) := by
      rw [Nat.add_sub_cancel, bkUndo_one _ k kp _ hpk, ea]
    have huk : ∀ i, bkUndo (bkBlockStep n k false kp w' s).piv (k + 1 - 1) (bkBlockStep n k false kp w' s).a i k =
        bkBlockElim1 n k A W i k := by
      intro i
      rw [hu, bkUndo_right _ _ _ _ _ (by omega), swapRows_eq, if_neg (by omega)]
    refine ⟨?_, hpivc, ?_, ?_⟩
    · refine .one k kp _ _ hk hkp hpk hne ?_ ?_ ?_ (h3 rfl)
      · rw [huk, ekk]
      · intro i hi hin; rw [huk, ek i hi hin]
      · have key : ∀ i j, k < j → j ≤ i → i < n → bkVirt (k + 1) (bkBlockElim1 n k A W) W i j =
            V (swap k kp i) (swap k kp j) - V (swap k kp i) kp / V kp kp * V (swap k kp j) kp := by
          intro i j hj hji hin
          unfold bkVirt
          rw [show symRow (bkBlockElim1 n k A W) i j = bkBlockElim1 n k A W i j from if_pos hji, eo i j (by omega), g2 i j hj hji hin,
            Finset.sum_range_succ, ek i (by omega) hin, hWk j hj.le (by omega), hVe (swap k kp i) (swap k kp j)]
          rw [Finset.sum_congr rfl fun c hc => show bkBlockElim1 n k A W i c * W j c = s.a (swap k kp i) c * s.w (swap k kp j) c by
            have := Finset.mem_range.1 hc
            rw [eo i c (by omega), g1 i c this, g3 j c this.le, w0 _ c this]]
          ring
        have key' : ∀ i j, k < i → i < j → j < n → bkVirt (k + 1) (bkBlockElim1 n k A W) W i j =
            V (swap k kp j) (swap k kp i) - V (swap k kp i) kp / V kp kp * V (swap k kp j) kp := by
          intro i j hi hij hjn
          obtain ⟨m1, m2⟩ := swap_mem (n := n) le_rfl (by omega) hk hkp (show k ≤ i by omega) (by omega)
          obtain ⟨m3, m4⟩ := swap_mem (n := n) le_rfl (by omega) hk hkp (show k ≤ j by omega) (by omega)
          unfold bkVirt
          rw [show symRow (bkBlockElim1 n k A W) i j = bkBlockElim1 n k A W j i from if_neg (by omega), eo j i (by omega),
            g2 j i hi hij.le hjn, Finset.sum_range_succ, ek i (by omega) (by omega), hWk j (by omega) (by omega), symRow_symm,
            hs _ _ m3 m4 m1 m2, hVe (swap k kp i) (swap k kp j)]
          rw [Finset.sum_congr rfl fun c hc => show bkBlockElim1 n k A W i c * W j c = s.a (swap k kp i) c * s.w (swap k kp j) c by
            have := Finset.mem_range.1 hc
            rw [eo i c (by omega), g1 i c this, g3 j c this.le, w0 _ c this]]
          ring
        intro i j hi hin hj hjn
        rw [huk, ek i hi hin, ea, ew]
        by_cases hji : j ≤ i
        · rw [key i j hj hji hin]
        · obtain ⟨m1, m2⟩ := swap_mem (n := n) le_rfl (by omega) hk hkp (show k ≤ i by omega) (by omega)
          obtain ⟨m3, m4⟩ := swap_mem (n := n) le_rfl (by omega) hk hkp (show k ≤ j by omega) (by omega)
          rw [key' i j hi (by omega) hjn, hs _ _ m3 m4 m1 m2]
    · intro c hc
      simp only [bkBlockStep, bkSetPiv, Bool.false_eq_true, if_false]
      rw [if_neg (by omega)]
    · intro c hc i
      rw [hu]
      refine bkUndo_congr _ _ _ _ _ (fun i hi => hpivc i (by omega)) c (fun i => ?_) i
      rw [swapRows_eq, if_pos hc, eo _ c (by omega), g1 _ c hc, Equiv.swap_comm kp k, swap_swap_app]
  · simp only [if_true] at hk g1 g2 g3 ⊢
    obtain ⟨hne, hdet⟩ := h2 rfl
    have w2 := w2 rfl
    have hσk : swap (k + 1) kp k = k := Equiv.swap_apply_of_ne_of_ne (by omega) (by omega)
    have hq : V k kp = V kp k := hs k kp le_rfl (by omega) (by omega) hkp
    generalize hA : (bkBlockSwap n k true kp s.a w').1 = A at *
    generalize hW : (bkBlockSwap n k true kp s.a w').2 = W at *
    have hmem : ∀ i, k ≤ i → i < n → k ≤ swap (k + 1) kp i ∧ swap (k + 1) kp i < n := fun i hi hin =>
      swap_mem (n := n) (by omega) (by omega) (by omega) hkp hi hin
    have hWk : ∀ i, k ≤ i → i < n → W i k = V (swap (k + 1) kp i) k := by
      intro i hi hin
      rw [g3 i k (by omega), (w2 _ (hmem i hi hin).1 (hmem i hi hin).2).1]
    have hWk1 : ∀ i, k ≤ i → i < n → W i (k + 1) = V (swap (k + 1) kp i) kp := by
      intro i hi hin
      rw [g3 i (k + 1) le_rfl, (w2 _ (hmem i hi hin).1 (hmem i hi hin).2).2]
    have e1 : W k k = V k k := by rw [hWk k le_rfl (by omega), hσk]
    have e2 : W (k + 1) k = V kp k := by rw [hWk (k + 1) (by omega) (by omega), Equiv.swap_apply_left]
    have e3 : W (k + 1) (k + 1) = V kp kp := by rw [hWk1 (k + 1) (by omega) (by omega), Equiv.swap_apply_left]
    have ea : (bkBlockStep n k true kp w' s).a = bkBlockElim2 n k A W := by simp [bkBlockStep, hA, hW]
    have ew : (bkBlockStep n k true kp w' s).w = W := by simp [bkBlockStep, hW]
    obtain ⟨f1, f2, f3, f4, f5⟩ := bkD_inv (V k k) (V kp k) (V kp kp) hne hdet.ne
    have ek : ∀ i, k + 1 < i → i < n → bkBlockElim2 n k A W i k = (V kp kp * V (swap (k + 1) kp i) k - V kp k * V (swap (k + 1) kp i) kp) /
        (V k k * V kp kp - V kp k * V kp k) := by
      intro i hi hin
      unfold bkBlockElim2
      simp only
      rw [if_pos ⟨trivial, by omega, hin⟩, e1, e2, e3, f4, hWk i (by omega) hin, hWk1 i (by omega) hin]
    have ek1 : ∀ i, k + 1 < i → i < n → bkBlockElim2 n k A W i (k + 1) = (V k k * V (swap (k + 1) kp i) kp - V kp k * V (swap (k + 1) kp i) k) /
        (V k k * V kp kp - V kp k * V kp k) := by
      intro i hi hin
      unfold bkBlockElim2
      simp only
      rw [if_neg (by omega), if_pos ⟨trivial, by omega, hin⟩, e1, e2, e3, f5, hWk i (by omega) hin, hWk1 i (by omega) hin]
    have eo : ∀ i c, c ≠ k → c ≠ k + 1 → bkBlockElim2 n k A W i c = A i c := by
      intro i c hc hc1
      unfold bkBlockElim2
      simp only
      rw [if_neg (by omega), if_neg (by omega), if_neg (by omega), if_neg (by omega), if_neg (by omega)]
    have hpk : (bkBlockStep n k true kp w' s).piv k = -1 - (kp : ℤ) := by simp [bkBlockStep, bkSetPiv]
    have hpk1 : (bkBlockStep n k true kp w' s).piv (k + 1) = -1 - (kp : ℤ) := by simp [bkBlockStep, bkSetPiv]
    have hu : bkUndo (bkBlockStep n k true kp w' s).piv (k + 2 - 1) (bkBlockStep n k true kp w' s).a =
        bkUndo (bkBlockStep n k true kp w' s).piv (k - 1) (swapRows k kp (k + 1) (bkBlockElim2 n k A W)) := by
      rw [show k + 2 - 1 = k + 1 by omega, bkUndo_two _ k kp _ hpk1, ea]
    have huk : ∀ i c, k ≤ c → bkUndo (bkBlockStep n k true kp w' s).piv (k + 2 - 1) (bkBlockStep n k true kp w' s).a i c =
        bkBlockElim2 n k A W i c := by
      intro i c hc
      rw [hu, bkUndo_right _ _ _ _ _ (by omega), swapRows_eq, if_neg (by omega)]
    refine ⟨?_, hpivc, ?_, ?_⟩
    · refine .two k kp _ _ hk hkp hpk hpk1 hdet ?_ ?_ ?_ ?_ ?_ ?_ (h4 rfl)
      · rw [huk _ _ le_rfl]
        unfold bkBlockElim2
        simp only
        rw [if_neg (by omega), if_neg (by omega), if_pos ⟨trivial, trivial⟩, e1, e2, e3, f1]
      · rw [huk _ _ le_rfl]
        unfold bkBlockElim2
        simp only
        rw [if_neg (by omega), if_neg (by omega), if_neg (by omega), if_pos ⟨trivial, trivial⟩, e1, e2, e3, f2]
      · rw [huk _ _ (by omega)]
        unfold bkBlockElim2
        simp only
        rw [if_neg (by omega), if_neg (by omega), if_neg (by omega), if_neg (by omega), if_pos ⟨trivial, trivial⟩, e1, e2, e3, f3]
      · intro i hi hin; rw [huk _ _ le_rfl, ek i hi hin]
      · intro i hi hin; rw [huk _ _ (by omega), ek1 i hi hin]
      · have hsum : ∀ i j, ∑ c ∈ Finset.range k, bkBlockElim2 n k A W i c * W j c =
            ∑ c ∈ Finset.range k, s.a (swap (k + 1) kp i) c * s.w (swap (k + 1) kp j) c := by
          intro i j
          refine Finset.sum_congr rfl fun c hc => ?_
          have := Finset.mem_range.1 hc
          rw [eo i c (by omega) (by omega), g1 i c this, g3 j c (by omega), w0 _ c this]
        have hsymrow : ∀ i j, k + 1 < i → i < n → k + 1 < j → j < n →
            symRow (bkBlockElim2 n k A W) i j = symRow s.a (swap (k + 1) kp i) (swap (k + 1) kp j) := by
          intro i j hi hin hj hjn
          by_cases hji : j ≤ i
          · rw [show symRow (bkBlockElim2 n k A W) i j = bkBlockElim2 n k A W i j from if_pos hji, eo i j (by omega) (by omega), g2 i j hj hji hin]
          · rw [show symRow (bkBlockElim2 n k A W) i j = bkBlockElim2 n k A W j i from if_neg hji, eo j i (by omega) (by omega),
              g2 j i hi (by omega) hjn, symRow_symm]
        intro i j hi hin hj hjn
        rw [huk _ _ le_rfl, huk _ _ (by omega), ek i hi hin, ek1 i hi hin, ea, ew]
        unfold bkVirt
        rw [hsymrow i j hi hin hj hjn, Finset.sum_range_succ, Finset.sum_range_succ, hsum, ek i hi hin, ek1 i hi hin,
          hWk j (by omega) hjn, hWk1 j (by omega) hjn, hVe (swap (k + 1) kp i) (swap (k + 1) kp j)]
        ring
    · intro c hc
      simp only [bkBlockStep, bkSetPiv, if_true]
      rw [if_neg (by omega)]
    · intro c hc i
      rw [hu]
      refine bkUndo_congr _ _ _ _ _ (fun i hi => hpivc i (by omega)) c (fun i => ?_) i
      rw [swapRows_eq, if_pos hc, eo _ c (by omega) (by omega), g1 _ c hc, Equiv.swap_comm kp (k + 1), swap_swap_app]

/-- the loop of a block: a sequence of pivot steps; it stops before the end only at a zero column -/
theorem bkBlockLoop_spec (alpha : K) (h0 : 0 < alpha) (h1 : alpha < 1) (n nb : ℕ) (S0 : ℕ → ℕ → K) (k : ℕ) (s : BkBlockSt K) (hkn : k ≤ n)
    (hs : SymOn k n (bkVirt k s.a s.w))
    (hc : ReflTransGen (BkOne alpha n s.piv (bkUndo s.piv (k - 1) s.a)) (0, S0) (k, bkVirt k s.a s.w)) :
    let r := bkBlockLoop alpha n nb k s
    ∃ k', ReflTransGen (BkOne alpha n r.2.piv (bkUndo r.2.piv (k' - 1) r.2.a)) (0, S0) (k', bkVirt k' r.2.a r.2.w) ∧ k ≤ k' ∧ k' ≤ n ∧
      (∀ c, k' ≤ c → r.2.piv c = s.piv c) ∧ (k < n → k + 1 < nb → r.1 = none ∨ k < k') ∧
      (∀ m, r.1 = some m → m = k') ∧ (r.1 = none → k' < n ∧ ∀ i, k' ≤ i → i < n → bkVirt k' r.2.a r.2.w i k' = 0) := by
  induction k, s using bkBlockLoop.induct alpha n nb with
  | case1 k s hk hnone =>
    have hb := bkBlockChoose_spec alpha h0 n k hk.1 s.a s.w hs
    have hc' := bkChoose_spec alpha h0 h1 n k (bkVirt k s.a s.w) hk.1 hs
    rw [hnone] at hb
    simp only at hb
    rw [hb] at hc'
    rw [bkBlockLoop, if_pos hk, hnone]
    exact ⟨k, hc, le_rfl, hkn, fun _ _ => rfl, fun _ _ => .inl rfl, by simp, fun _ => ⟨hk.1, hc'⟩⟩
  | case2 k s hk kp two w hsome ih =>
    have hb := bkBlockChoose_spec alpha h0 n k hk.1 s.a s.w hs
    have hc' := bkChoose_spec alpha h0 h1 n k (bkVirt k s.a s.w) hk.1 hs
    rw [hsome] at hb
    simp only at hb
    obtain ⟨b0, b1, b2, b3⟩ := hb
    have hg := bkChoose_good alpha h0 h1 n k (bkVirt k s.a s.w) hk.1 hs
    rw [b0] at hc' hg
    rw [bkBlockLoop, if_pos hk, hsome]
    simp only [dite_eq_ite] at ih
    have hlow : (if two then k + 1 else k) ≤ kp ∧ kp < n ∧ (two = false → bkVirt k s.a s.w kp kp ≠ 0) ∧
        (two = true → bkVirt k s.a s.w kp k ≠ 0 ∧
          bkVirt k s.a s.w k k * bkVirt k s.a s.w kp kp - bkVirt k s.a s.w kp k * bkVirt k s.a s.w kp k < 0) := by
      cases two
      · exact ⟨by simpa using hc'.1, hc'.2.1, fun _ => hc'.2.2, by simp⟩
      · exact ⟨by simpa using hc'.1, hc'.2.1, by simp, fun _ => ⟨hc'.2.2.1, hc'.2.2.2⟩⟩
    obtain ⟨l1, l2, l3, l4⟩ := hlow
    obtain ⟨t1, t2, t3, t4⟩ := bkBlockStep_spec (alpha := alpha) n k two kp s w hs l1 l2 l3 l4
      (by rintro rfl; exact hg) (by rintro rfl; exact hg) b1 b2 b3
    have hle := t1.lt
    simp only at hle
    have hc2 : ReflTransGen (BkOne alpha n (bkBlockStep n k two kp w s).piv (bkUndo (bkBlockStep n k two kp w s).piv
        ((if two then k + 2 else k + 1) - 1) (bkBlockStep n k two kp w s).a)) (0, S0) ((if two then k + 2 else k + 1),
        bkVirt (if two then k + 2 else k + 1) (bkBlockStep n k two kp w s).a (bkBlockStep n k two kp w s).w) :=
      .tail (chain_congr hc (fun c _ hc => t2 c hc) fun c _ hc i _ _ => t4 c hc i) t1
    obtain ⟨k', g1, g2, g3, g4, g5, g6, g7⟩ := ih hle.2 (t1.sym hs) hc2
    exact ⟨k', g1, by omega, g3, fun c hc => (g4 c hc).trans (t3 c (by omega)), fun _ _ => .inr (by omega), g6, g7⟩
  | case3 k s hk =>
    rw [bkBlockLoop, if_neg hk]
    exact ⟨k, hc, le_rfl, hkn, fun _ _ => rfl, fun h1 h2 => absurd ⟨h1, h2⟩ hk, by simp, by simp⟩

theorem bkVirt_zero (a w : ℕ → ℕ → K) : bkVirt 0 a w = symRow a := by
  funext i j; simp [bkVirt]

/-- a block: pivot steps on its input, whose trailing part is the updated matrix -/
theorem bkOneBlock_spec (alpha : K) (h0 : 0 < alpha) (h1 : alpha < 1) (n nb : ℕ) (hn : 0 < n) (hnb : 2 ≤ nb) (s : BkBlockSt K) :
    match bkOneBlock alpha n nb s with
    | (some k', r) => 0 < k' ∧ k' ≤ n ∧ (∀ c, k' ≤ c → r.piv c = s.piv c) ∧
        ∃ T, ReflTransGen (BkOne alpha n r.piv r.a) (0, symRow s.a) (k', T) ∧ ∀ i j, k' ≤ i → i < n → k' ≤ j → j < n → T i j = symRow r.a i j
    | (none, _) => ∃ piv M k' T, k' < n ∧ ReflTransGen (BkOne alpha n piv M) (0, symRow s.a) (k', T) ∧ ∀ i, k' ≤ i → i < n → T i k' = 0 := by
  obtain ⟨k', g1, g2, g3, g4, g5, g6, g7⟩ := bkBlockLoop_spec alpha h0 h1 n nb (symRow s.a) 0 s (Nat.zero_le _)
    (by rw [bkVirt_zero]; exact fun i j _ _ _ _ => symRow_symm s.a i j) (by rw [bkVirt_zero])
  unfold bkOneBlock
  rw [if_neg (by omega)]
  generalize bkBlockLoop alpha n nb 0 s = r at *
  obtain ⟨o, r⟩ := r
  cases o with
  | none =>
    obtain ⟨e1, e2⟩ := g7 rfl
    exact ⟨_, _, k', _, e1, g1, e2⟩
  | some m =>
    obtain rfl := g6 m rfl
    simp only at g1 g4 ⊢
    refine ⟨?_, g3, g4, bkVirt m r.a r.w, chain_congr g1 (fun _ _ _ => rfl) ?_, ?_⟩
    · rcases g5 (by omega) (by omega) with h | h
      · cases h
      · exact h
    · intro c _ hc i _ _
      refine bkUndo_congr _ _ _ _ _ (fun _ _ => rfl) c (fun i => ?_) i
      unfold bkTrailing
      rw [if_neg (by simp only at hc; omega)]
    · have hsy := chain_sym g1 fun i j _ _ _ _ => symRow_symm s.a i j
      have key : ∀ i j, m ≤ j → j ≤ i → i < n → bkVirt m r.a r.w i j = bkUndo r.piv (m - 1) (bkTrailing n m r.a r.w) i j := by
        intro i j hj hji hin
        rw [bkUndo_right _ _ _ _ _ (by omega)]
        unfold bkTrailing bkVirt symRow
        rw [if_pos hji, if_pos ⟨hj, hji, hin⟩]
      intro i j hi hin hj hjn
      unfold symRow
      split_ifs with h
      · exact key i j hj h hin
      · rw [← key j i hi (by omega) hjn]
        exact hsy i j hi hin hj hjn

/-! ### blocks within the matrix -/

/-- a matrix placed at offset `o` -/
def upMat (o : ℕ) (S : ℕ → ℕ → K) : ℕ → ℕ → K := fun i j => S (i - o) (j - o)

theorem swap_add (o p q i : ℕ) : swap (o + p) (o + q) (o + i) = o + swap p q i := by
  simp only [Equiv.swap_apply_def]
  split_ifs <;> omega

theorem MaxOn.down {o k n : ℕ} {S : ℕ → ℕ → K} {m : K} (h : MaxOn (o + k) (o + n) (upMat o S) m) : MaxOn k n S m := by
  intro i j h1 h2 h3 h4
  have := h (o + i) (o + j) (by omega) (by omega) (by omega) (by omega)
  simpa [upMat] using this

theorem BkGood1.up {alpha : K} {n k kp : ℕ} {S : ℕ → ℕ → K} (h : BkGood1 alpha n k kp S) (o : ℕ) :
    BkGood1 alpha (o + n) (o + k) (o + kp) (upMat o S) := by
  intro m hm i j h1 h2 h3 h4
  obtain ⟨i, rfl⟩ := Nat.exists_eq_add_of_le (show o ≤ i by omega)
  obtain ⟨j, rfl⟩ := Nat.exists_eq_add_of_le (show o ≤ j by omega)
  simpa [upMat] using h m hm.down i j (by omega) (by omega) (by omega) (by omega)

theorem BkGood2.up {alpha : K} {n k kp : ℕ} {S : ℕ → ℕ → K} (h : BkGood2 alpha n k kp S) (o : ℕ) :
    BkGood2 alpha (o + n) (o + k) (o + kp) (upMat o S) := by
  refine ⟨by simpa [upMat] using h.1, fun m hm i j h1 h2 h3 h4 h5 h6 h7 h8 => ?_, fun m hm i j h1 h2 h3 h4 => ?_⟩ <;>
    obtain ⟨i, rfl⟩ := Nat.exists_eq_add_of_le (show o ≤ i by omega) <;>
    obtain ⟨j, rfl⟩ := Nat.exists_eq_add_of_le (show o ≤ j by omega)
  · have := h.2.1 m hm.down i j (by omega) (by omega) (by omega) (by omega) (by omega) (by omega) (by omega) (by omega)
    simpa [upMat] using this
  · have := h.2.2 m hm.down i j (by omega) (by omega) (by omega) (by omega)
    simpa [upMat, bkL1, bkL2] using this

theorem BkOne.up {alpha : K} {n : ℕ} {piv piv' : ℕ → ℤ} {M M' : ℕ → ℕ → K} {x y} (o : ℕ) (h : BkOne alpha n piv M x y)
    (hp : ∀ c, x.1 ≤ c → c < y.1 → piv' (o + c) = if 0 ≤ piv c then piv c + o else piv c - o)
    (hM : ∀ c, x.1 ≤ c → c < y.1 → ∀ i, c ≤ i → i < n → M' (o + i) (o + c) = M i c) :
    BkOne alpha (o + n) piv' M' (o + x.1, upMat o x.2) (o + y.1, upMat o y.2) := by
  have hu : ∀ (S : ℕ → ℕ → K) i j, upMat o S (o + i) (o + j) = S i j := by
    intro S i j
    simp [upMat]
  cases h with
  | one k kp S T hk hkp hpiv hne hd hl hT hg =>
    simp only at hp hM ⊢
    have hc : ∀ i, k ≤ i → i < n → M' (o + i) (o + k) = M i k := hM k le_rfl (by omega)
    refine .one (o + k) (o + kp) _ _ (by omega) (by omega) ?_ ?_ ?_ ?_ ?_ (hg.up o)
    · rw [hp k le_rfl (by omega), hpiv, if_pos (by omega)]; push_cast; ring
    · rw [hu]; exact hne
    · rw [hc k le_rfl (by omega), hu, hd]
    · intro i h1 h2
      obtain ⟨i, rfl⟩ := Nat.exists_eq_add_of_le (show o ≤ i by omega)
      rw [hc i (by omega) (by omega), swap_add, hu, hu, hl i (by omega) (by omega)]
    · intro i j h1 h2 h3 h4
      obtain ⟨i, rfl⟩ := Nat.exists_eq_add_of_le (show o ≤ i by omega)
      obtain ⟨j, rfl⟩ := Nat.exists_eq_add_of_le (show o ≤ j by omega)
      rw [hc i (by omega) (by omega), swap_add, swap_add, hu, hu, hu, hT i j (by omega) (by omega) (by omega) (by omega)]
  | two k kp S T hk hkp hpiv hpiv' hdet hd0 hd1 hd2 hl0 hl1 hT hg =>
    simp only at hp hM ⊢
    have hc : ∀ i, k ≤ i → i < n → M' (o + i) (o + k) = M i k := hM k le_rfl (by omega)
    have hc1 : ∀ i, k + 1 ≤ i → i < n → M' (o + i) (o + (k + 1)) = M i (k + 1) := hM (k + 1) (by omega) (by omega)
    refine .two (o + k) (o + kp) _ _ (by omega) (by omega) ?_ ?_ ?_ ?_ ?_ ?_ ?_ ?_ ?_ (hg.up o)
    · rw [hp k le_rfl (by omega), hpiv, if_neg (by omega)]; push_cast; ring
    · rw [show o + k + 1 = o + (k + 1) by omega, hp (k + 1) (by omega) (by omega), hpiv', if_neg (by omega)]; push_cast; ring
    · simp only [hu]; exact hdet
    · simp only [hu]; rw [hc k le_rfl (by omega), hd0]
    · simp only [hu]; rw [show o + k + 1 = o + (k + 1) by omega, hc (k + 1) (by omega) (by omega), hd1]
    · simp only [hu]; rw [show o + k + 1 = o + (k + 1) by omega, hc1 (k + 1) (by omega) (by omega), hd2]
    · intro i h1 h2
      obtain ⟨i, rfl⟩ := Nat.exists_eq_add_of_le (show o ≤ i by omega)
      rw [hc i (by omega) (by omega), show o + k + 1 = o + (k + 1) by omega, swap_add]
      simp only [hu]
      rw [hl0 i (by omega) (by omega)]
    · intro i h1 h2
      obtain ⟨i, rfl⟩ := Nat.exists_eq_add_of_le (show o ≤ i by omega)
      rw [show o + k + 1 = o + (k + 1) by omega, hc1 i (by omega) (by omega), swap_add]
      simp only [hu]
      rw [hl1 i (by omega) (by omega)]
    · intro i j h1 h2 h3 h4
      obtain ⟨i, rfl⟩ := Nat.exists_eq_add_of_le (show o ≤ i by omega)
      obtain ⟨j, rfl⟩ := Nat.exists_eq_add_of_le (show o ≤ j by omega)
      rw [show o + k + 1 = o + (k + 1) by omega, hc1 i (by omega) (by omega), hc i (by omega) (by omega), swap_add, swap_add]
      simp only [hu]
      rw [hT i j (by omega) (by omega) (by omega) (by omega)]

theorem chain_up {alpha : K} {n : ℕ} {piv piv' : ℕ → ℤ} {M M' : ℕ → ℕ → K} {x y} (o : ℕ) (h : ReflTransGen (BkOne alpha n piv M) x y)
    (hp : ∀ c, x.1 ≤ c → c < y.1 → piv' (o + c) = if 0 ≤ piv c then piv c + o else piv c - o)
    (hM : ∀ c, x.1 ≤ c → c < y.1 → ∀ i, c ≤ i → i < n → M' (o + i) (o + c) = M i c) :
    ReflTransGen (BkOne alpha (o + n) piv' M') (o + x.1, upMat o x.2) (o + y.1, upMat o y.2) := by
  induction h with
  | refl => exact .refl
  | tail h0 h1 ih =>
    have h2 := h1.lt
    have h3 := chain_le h0
    refine .tail (ih (fun c a b => hp c a (by omega)) fun c a b => hM c a (by omega)) (h1.up o ?_ ?_)
    · exact fun c a b => hp c (by omega) b
    · exact fun c a b => hM c (by omega) b

/-- equal trailing matrices -/
def EqOn (k n : ℕ) (S T : ℕ → ℕ → K) : Prop := ∀ i j, k ≤ i → i < n → k ≤ j → j < n → S i j = T i j

theorem BkOne.congr_src {alpha : K} {n : ℕ} {piv : ℕ → ℤ} {M : ℕ → ℕ → K} {k S y} (h : BkOne alpha n piv M (k, S) y) {S' : ℕ → ℕ → K} (hs : EqOn k n S' S) :
    BkOne alpha n piv M (k, S') y := by
  cases h with
  | one _ kp _ T hk hkp hpiv hne hd hl hT hg =>
    have hm : ∀ i, k ≤ i → i < n → k ≤ swap k kp i ∧ swap k kp i < n := fun i hi hin => swap_mem le_rfl (by omega) hk hkp hi hin
    have e : S' kp kp = S kp kp := hs kp kp hk hkp hk hkp
    refine .one k kp _ _ hk hkp hpiv (by rw [e]; exact hne) (by rw [e]; exact hd) ?_ ?_ (hg.congr hk hkp hs)
    · intro i h1 h2
      obtain ⟨m1, m2⟩ := hm i h1.le h2
      rw [hl i h1 h2, hs _ _ m1 m2 hk hkp, e]
    · intro i j h1 h2 h3 h4
      obtain ⟨m1, m2⟩ := hm i h1.le h2
      obtain ⟨m3, m4⟩ := hm j h3.le h4
      rw [hT i j h1 h2 h3 h4, hs _ _ m1 m2 m3 m4, hs _ _ m3 m4 hk hkp]
  | two _ kp _ T hk hkp hpiv hpiv' hdet hd0 hd1 hd2 hl0 hl1 hT hg =>
    have hm : ∀ i, k ≤ i → i < n → k ≤ swap (k + 1) kp i ∧ swap (k + 1) kp i < n := fun i hi hin =>
      swap_mem (by omega) (by omega) (by omega) hkp hi hin
    have e : S' kp kp = S kp kp := hs kp kp (by omega) hkp (by omega) hkp
    have e1 : S' kp k = S kp k := hs kp k (by omega) hkp le_rfl (by omega)
    have e2 : S' k k = S k k := hs k k le_rfl (by omega) le_rfl (by omega)
    refine .two k kp _ _ hk hkp hpiv hpiv' (by rw [e, e1, e2]; exact hdet) (by rw [e, e1, e2]; exact hd0) (by rw [e, e1, e2]; exact hd1)
      (by rw [e, e1, e2]; exact hd2) ?_ ?_ ?_ (hg.congr (by omega) hkp hs)
    · intro i h1 h2
      obtain ⟨m1, m2⟩ := hm i (by omega) h2
      rw [hl0 i h1 h2, e, e1, e2, hs _ _ m1 m2 (by omega) hkp, hs _ _ m1 m2 le_rfl (by omega)]
    · intro i h1 h2
      obtain ⟨m1, m2⟩ := hm i (by omega) h2
      rw [hl1 i h1 h2, e, e1, e2, hs _ _ m1 m2 (by omega) hkp, hs _ _ m1 m2 le_rfl (by omega)]
    · intro i j h1 h2 h3 h4
      obtain ⟨m1, m2⟩ := hm i (by omega) h2
      obtain ⟨m3, m4⟩ := hm j (by omega) h4
      rw [hT i j h1 h2 h3 h4, hs _ _ m1 m2 m3 m4, hs _ _ m3 m4 (by omega) hkp, hs _ _ m3 m4 le_rfl (by omega)]

theorem chain_congr_src {alpha : K} {n : ℕ} {piv : ℕ → ℤ} {M : ℕ → ℕ → K} {k k' S T} (h : ReflTransGen (BkOne alpha n piv M) (k, S) (k', T))
    {S' : ℕ → ℕ → K} (hs : EqOn k n S' S) : ∃ T', EqOn k' n T' T ∧ ReflTransGen (BkOne alpha n piv M) (k, S') (k', T') := by
  rcases h.cases_head with h1 | ⟨z, h1, h2⟩
  · obtain ⟨rfl, rfl⟩ := Prod.mk.inj h1
    exact ⟨S', hs, .refl⟩
  · exact ⟨T, fun _ _ _ _ _ _ => rfl, .head (h1.congr_src hs) h2⟩

theorem bkUnblocked_spec (alpha : K) (h0 : 0 < alpha) (h1 : alpha < 1) (n : ℕ) (hn : 0 < n) (s : BkSt K) (hp : s.piv 0 = 0) :
    let r := bkUnblocked alpha n s
    ∃ k', ReflTransGen (BkOne alpha n r.2.piv r.2.a) (0, symRow s.a) (k', symRow r.2.a) ∧
      (∀ c, k' ≤ c → r.2.piv c = s.piv c) ∧
      (r.1 = true → k' = n) ∧ (r.1 = false → k' < n ∧ ∀ i, k' ≤ i → i < n → symRow r.2.a i k' = 0) := by
  unfold bkUnblocked
  rw [if_neg (by omega)]
  by_cases hn1 : n = 1
  · subst hn1
    simp only [if_true]
    by_cases hz : |s.a 0 0| = 0
    · rw [if_pos hz]
      refine ⟨0, .refl, fun _ _ => rfl, by simp, fun _ => ⟨by omega, fun i _ hi => ?_⟩⟩
      obtain rfl : i = 0 := by omega
      simpa [symRow] using hz
    · rw [if_neg hz]
      refine ⟨1, .single (.one 0 0 _ _ le_rfl (by omega) (by simpa using hp) ?_ ?_ ?_ ?_ ?_), fun _ _ => rfl, by simp, by simp⟩
      · simpa [symRow] using hz
      · simp [symRow]
      · intro i _ _; omega
      · intro i j _ _ _ _; omega
      · intro m hm i j _ hi _ hj
        obtain rfl : i = 0 := by omega
        obtain rfl : j = 0 := by omega
        have h2 := hm 0 0 le_rfl hi le_rfl hi
        rw [abs_mul]
        have h3 := mul_le_mul_of_nonneg_left h2 (abs_nonneg (symRow s.a 0 0))
        have h4 : 0 ≤ |symRow s.a 0 0| * |symRow s.a 0 0| := mul_nonneg (abs_nonneg _) (abs_nonneg _)
        nlinarith
  · rw [if_neg hn1]
    obtain ⟨k', g1, -, -, g4, g5, g6⟩ := bkLoop_spec alpha h0 h1 n 0 s (Nat.zero_le _)
    exact ⟨k', g1, g4, g5, g6⟩

/-- results of a block made global -/
theorem chain_put {alpha : K} {n k kb : ℕ} {s r : BkSt K} {S0 S T : ℕ → ℕ → K} (hk : k ≤ n) (hkb : k + kb ≤ n)
    (hc : ReflTransGen (BkOne alpha n s.piv s.a) (0, S0) (k, S)) (hS : EqOn k n S (symRow s.a))
    (h : ReflTransGen (BkOne alpha (n - k) r.piv r.a) (0, symRow (bkSub k s).a) (kb, T)) :
    ∃ T', EqOn (k + kb) n T' (upMat k T) ∧
      ReflTransGen (BkOne alpha n (bkShift k kb (bkPut k n s r).piv) (bkPut k n s r).a) (0, S0) (k + kb, T') := by
  have h2 := chain_up (piv' := bkShift k kb (bkPut k n s r).piv) (M' := (bkPut k n s r).a) k h ?_ ?_
  · simp only [Nat.add_zero] at h2
    rw [show k + (n - k) = n by omega] at h2
    have hE : EqOn k n S (upMat k (symRow (bkSub k s).a)) := by
      intro i j h1 h2 h3 h4
      rw [hS i j h1 h2 h3 h4]
      obtain ⟨i, rfl⟩ := Nat.exists_eq_add_of_le h1
      obtain ⟨j, rfl⟩ := Nat.exists_eq_add_of_le h3
      simp [upMat, symRow, bkSub]
    obtain ⟨T', t1, t2⟩ := chain_congr_src h2 hE
    refine ⟨T', t1, .trans (chain_congr hc ?_ ?_) t2⟩
    · intro c _ h1
      simp only at h1
      simp only [bkShift, bkPut]
      rw [if_neg (by omega), if_neg (by omega)]
    · intro c _ h1 i _ _
      simp only at h1
      simp only [bkPut]
      rw [if_neg (by omega)]
  · intro c _ h1
    simp only at h1
    have hpp : (bkPut k n s r).piv (k + c) = r.piv c := by
      simp only [bkPut]
      rw [if_pos (by omega), Nat.add_sub_cancel_left]
    simp only [bkShift, hpp]
    rw [if_pos (by omega)]
  · intro c _ h1 i h2 h3
    simp only at h1
    simp only [bkPut]
    rw [if_pos (by omega), Nat.add_sub_cancel_left, Nat.add_sub_cancel_left]

theorem put_up {n k kb : ℕ} {s r : BkSt K} {T T' : ℕ → ℕ → K} (h1 : EqOn (k + kb) n T' (upMat k T))
    (h2 : EqOn kb (n - k) T (symRow r.a)) : EqOn (k + kb) n T' (symRow (bkPut k n s r).a) := by
  intro i j a1 a2 a3 a4
  rw [h1 i j a1 a2 a3 a4]
  unfold upMat
  rw [h2 _ _ (by omega) (by omega) (by omega) (by omega)]
  obtain ⟨i, rfl⟩ := Nat.exists_eq_add_of_le (show k ≤ i by omega)
  obtain ⟨j, rfl⟩ := Nat.exists_eq_add_of_le (show k ≤ j by omega)
  simp only [symRow, bkPut, Nat.add_sub_cancel_left, Nat.add_le_add_iff_left, Nat.le_add_right, true_and, a2, a4, and_self, if_true]

/-- the first loop of the factorisation: pivot steps on the whole matrix -/
theorem bkBlocks_spec (alpha : K) (h0 : 0 < alpha) (h1 : alpha < 1) (n nb : ℕ) (hnb : nb = 0 ∨ 2 ≤ nb) (S0 : ℕ → ℕ → K)
    (fuel : ℕ) : ∀ (k : ℕ) (w : ℕ → ℕ → K) (s : BkSt K) (_ : n - k ≤ fuel) (_ : k ≤ n) (_ : ∀ c, k ≤ c → s.piv c = 0) (S : ℕ → ℕ → K)
    (_ : ReflTransGen (BkOne alpha n s.piv s.a) (0, S0) (k, S)) (_ : EqOn k n S (symRow s.a)),
    match bkBlocks alpha n nb fuel k w s with
    | none => False
    | some (true, r) => ∃ T, ReflTransGen (BkOne alpha n r.piv r.a) (0, S0) (n, T)
    | some (false, r) => ∃ piv M k' T, k' < n ∧ ReflTransGen (BkOne alpha n piv M) (0, S0) (k', T) ∧ (∀ i, k' ≤ i → i < n → T i k' = 0) ∧
        (nb = 0 → k = 0 → (∀ c, c < n → piv c = r.piv c) ∧ (∀ i c, i < n → c < n → M i c = r.a i c) ∧ EqOn k' n T (symRow r.a) ∧
          ∀ c, k' ≤ c → r.piv c = 0) := by
  have hdone : ∀ (k : ℕ) (s : BkSt K) (S : ℕ → ℕ → K), k ≤ n → ¬ k < n → ReflTransGen (BkOne alpha n s.piv s.a) (0, S0) (k, S) →
      ∃ T, ReflTransGen (BkOne alpha n s.piv s.a) (0, S0) (n, T) := by
    intro k s S h1 h2 h3
    obtain rfl : k = n := by omega
    exact ⟨S, h3⟩
  induction fuel with
  | zero =>
    intro k w s hf hk hp S hc hS
    rw [bkBlocks, if_neg (by omega)]
    exact hdone k s S hk (by omega) hc
  | succ fuel ih =>
    intro k w s hf hk hp S hc hS
    rw [bkBlocks]
    by_cases hkn : k < n
    · rw [if_pos hkn]
      by_cases hb : nb ≠ 0 ∧ nb < n - k
      · rw [if_pos hb]
        have hspec := bkOneBlock_spec alpha h0 h1 (n - k) nb (by omega) (by omega) { a := (bkSub k s).a, w, piv := (bkSub k s).piv }
        rcases hr : bkOneBlock alpha (n - k) nb { a := (bkSub k s).a, w, piv := (bkSub k s).piv } with ⟨_ | kb, r⟩
        · rw [hr] at hspec
          simp only at hspec ⊢
          obtain ⟨piv, M, k', T, e1, e2, e3⟩ := hspec
          obtain ⟨T', t1, t2⟩ := chain_put (r := { a := M, piv }) hk (by omega) hc hS e2
          refine ⟨_, _, k + k', T', by omega, t2, fun i h1 h2 => ?_, fun h => absurd h hb.1⟩
          rw [t1 i _ h1 h2 le_rfl (by omega), upMat, Nat.add_sub_cancel_left]
          exact e3 _ (by omega) (by omega)
        · rw [hr] at hspec
          simp only at hspec ⊢
          obtain ⟨g1, g2, g3, T, g4, g5⟩ := hspec
          obtain ⟨T', t1, t2⟩ := chain_put (r := { a := r.a, piv := r.piv }) hk (by omega) hc hS g4
          have hz := ih (k + kb) r.w { a := (bkPut k n s { a := r.a, piv := r.piv }).a, piv := bkShift k kb (bkPut k n s { a := r.a, piv := r.piv }).piv }
            (by omega) (by omega) ?_ T' t2 (put_up t1 g5)
          · generalize bkBlocks alpha n nb fuel (k + kb) r.w { a := (bkPut k n s { a := r.a, piv := r.piv }).a, piv := bkShift k kb (bkPut k n s { a := r.a, piv := r.piv }).piv } = z at hz ⊢
            match z, hz with
            | some (true, _), hz => exact hz
            | some (false, _), ⟨piv, M, k', T, e1, e2, e3, _⟩ => exact ⟨piv, M, k', T, e1, e2, e3, fun h => absurd h hb.1⟩
          · intro c hc1
            simp only [bkShift, bkPut]
            rw [if_neg (by omega)]
            split_ifs with hcn
            · rw [g3 _ (by omega)]
              simp only [bkSub]
              exact hp _ (by omega)
            · exact hp c (by omega)
      · rw [if_neg hb]
        obtain ⟨k', g1, g2, g3, g4⟩ := bkUnblocked_spec alpha h0 h1 (n - k) (by omega) (bkSub k s) (by simpa [bkSub] using hp k le_rfl)
        rcases hr : bkUnblocked alpha (n - k) (bkSub k s) with ⟨_ | _, r⟩
        · rw [hr] at g1 g2 g3 g4
          simp only at g1 g2 g4 ⊢
          obtain ⟨e1, e2⟩ := g4 trivial
          obtain ⟨T', t1, t2⟩ := chain_put (r := r) hk (by omega) hc hS g1
          refine ⟨_, _, k + k', T', by omega, t2, fun i h1 h2 => ?_, ?_⟩
          · rw [t1 i _ h1 h2 le_rfl (by omega), upMat, Nat.add_sub_cancel_left]
            exact e2 _ (by omega) (by omega)
          · intro _ hk0
            subst hk0
            refine ⟨fun c hc => ?_, fun _ _ _ _ => rfl, put_up t1 fun _ _ _ _ _ _ => rfl, fun c hc => ?_⟩
            · unfold bkShift
              split_ifs <;> simp
            · simp only [bkPut]
              split_ifs
              · rw [g2 _ (by omega)]
                exact hp _ (by omega)
              · exact hp _ (by omega)
        · rw [hr] at g1 g2 g3 g4
          simp only at g1 g2 g3 ⊢
          obtain rfl := g3 trivial
          obtain ⟨T', t1, t2⟩ := chain_put (r := r) hk (by omega) hc hS g1
          rw [show k + (n - k) = n by omega] at t1 t2
          have hd := hdone n { a := (bkPut k n s r).a, piv := bkShift k (n - k) (bkPut k n s r).piv } T' le_rfl (by omega) t2
          cases fuel with
          | zero => rw [bkBlocks, if_neg (by omega)]; exact hd
          | succ fuel => rw [bkBlocks, if_neg (by omega)]; exact hd
    · rw [if_neg hkn]
      exact hdone k s S hk hkn hc

end ProxNLP
