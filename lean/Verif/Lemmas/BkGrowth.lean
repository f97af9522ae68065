import Verif.Lemmas.BkBlocked
import Verif.Lemmas.BkPath
import Mathlib.Tactic.FieldSimp

/-! Growth of the entries in a sequence of Bunch-Kaufman pivot steps. -/

set_option linter.unusedSectionVars false
namespace ProxNLP

variable {K : Type} [Field K] [LinearOrder K] [IsStrictOrderedRing K]

open Equiv (swap)
open Relation (ReflTransGen)

theorem BkOne.grow {alpha : K} {n : ℕ} {piv : ℕ → ℤ} {M : ℕ → ℕ → K} {x y} (h : BkOne alpha n piv M x y) (h0 : 0 < alpha) (h1 : alpha < 1)
    (h2 : 4 * alpha ^ 2 ≤ alpha + 1) {m : K} (hm : MaxOn x.1 n x.2 m) : MaxOn y.1 n y.2 ((1 + 1 / alpha) ^ (y.1 - x.1) * m) := by
  cases h with
  | one k kp S T hk hkp hpiv hne hd hl hT hg =>
    simp only at hm ⊢
    intro i j h3 h4 h5 h6
    obtain ⟨a1, a2⟩ := swap_mem (n := n) le_rfl (by omega) hk hkp (show k ≤ i by omega) h4
    obtain ⟨b1, b2⟩ := swap_mem (n := n) le_rfl (by omega) hk hkp (show k ≤ j by omega) h6
    rw [hT i j (by omega) h4 (by omega) h6, hl i (by omega) h4, Nat.add_sub_cancel_left, pow_one]
    have g1 := hg m hm _ _ a1 a2 b1 b2
    have g2 := hm _ _ a1 a2 b1 b2
    have hp : 0 < |S kp kp| := abs_pos.2 hne
    have g3 : |S (swap k kp i) kp / S kp kp * S (swap k kp j) kp| ≤ 1 / alpha * m := by
      rw [div_mul_eq_mul_div, abs_div, div_le_iff₀ hp, div_mul_eq_mul_div, div_mul_eq_mul_div, le_div_iff₀ h0]
      linarith
    have g4 := abs_sub (S (swap k kp i) (swap k kp j)) (S (swap k kp i) kp / S kp kp * S (swap k kp j) kp)
    linarith
  | two k kp S T hk hkp hpiv hpiv' hdet hd0 hd1 hd2 hl0 hl1 hT hg =>
    simp only at hm ⊢
    intro i j h3 h4 h5 h6
    obtain ⟨a1, a2⟩ := swap_mem (n := n) (show k ≤ k + 1 by omega) (by omega) (by omega) hkp (show k ≤ i by omega) h4
    obtain ⟨b1, b2⟩ := swap_mem (n := n) (show k ≤ k + 1 by omega) (by omega) (by omega) hkp (show k ≤ j by omega) h6
    have ne : ∀ i, k + 2 ≤ i → swap (k + 1) kp i ≠ k ∧ swap (k + 1) kp i ≠ kp := by
      intro i hi
      rw [Equiv.swap_apply_def]
      split_ifs <;> omega
    have g1 := hg.2.1 m hm _ _ a1 a2 (ne i h3).1 (ne i h3).2 b1 b2 (ne j h5).1 (ne j h5).2
    have g2 := hm _ _ a1 a2 b1 b2
    have hm0 : 0 ≤ m := (abs_nonneg _).trans g2
    rw [hT i j (by omega) h4 (by omega) h6, hl0 i (by omega) h4, hl1 i (by omega) h4, Nat.add_sub_cancel_left]
    generalize swap (k + 1) kp i = i' at *
    generalize swap (k + 1) kp j = j' at *
    have hp : 0 < |S k k * S kp kp - S kp k * S kp k| := abs_pos.2 hdet.ne
    have e : (S kp kp * S i' k - S kp k * S i' kp) / (S k k * S kp kp - S kp k * S kp k) * S j' k +
        (S k k * S i' kp - S kp k * S i' k) / (S k k * S kp kp - S kp k * S kp k) * S j' kp =
        (S kp kp * (S i' k * S j' k) - S kp k * (S i' k * S j' kp + S i' kp * S j' k) + S k k * (S i' kp * S j' kp)) /
          (S k k * S kp kp - S kp k * S kp k) := by ring
    rw [e]
    generalize S kp kp * (S i' k * S j' k) - S kp k * (S i' k * S j' kp + S i' kp * S j' k) + S k k * (S i' kp * S j' kp) = X at *
    generalize S k k * S kp kp - S kp k * S kp k = d at *
    have g3 : |X / d| ≤ 2 * m / (1 - alpha) := by
      rw [abs_div, div_le_iff₀ hp, div_mul_eq_mul_div, le_div_iff₀ (by linarith)]
      linarith
    have g4 := abs_sub (S i' j') (X / d)
    have g5 : 2 / (1 - alpha) ≤ 2 / alpha + 1 / alpha ^ 2 := by
      have e2 : 2 / alpha + 1 / alpha ^ 2 = (2 * alpha + 1) / alpha ^ 2 := by field_simp
      rw [e2, div_le_div_iff₀ (by linarith) (by positivity)]
      nlinarith
    have g6 := mul_le_mul_of_nonneg_right g5 hm0
    have e3 : (1 + 1 / alpha) ^ 2 * m = m + (2 / alpha + 1 / alpha ^ 2) * m := by field_simp; ring
    have e4 : 2 * m / (1 - alpha) = 2 / (1 - alpha) * m := by ring
    rw [e3]
    linarith

theorem BkBlockDiag.mono {n : ℕ} {piv : ℕ → ℤ} {M D : ℕ → ℕ → K} {k k' : ℕ} (h : BkBlockDiag n piv M D k) (hk : k ≤ k') :
    BkBlockDiag n piv M D k' :=
  ⟨fun i j h1 h2 h3 h4 => h.sym i j (by omega) h2 (by omega) h4, fun i j h1 h2 h3 h4 => h.zero i j (by omega) h2 h3 h4,
    fun c h1 h2 h3 h4 => h.single c (by omega) h2 h3 h4, fun c h1 h2 h3 => h.double c (by omega) h2 h3⟩

/-- a symmetric 2x2 matrix is determined by its inverse -/
theorem inv2_inj {a b c a' b' c' : K} (hd : a * c - b * b ≠ 0) (hd' : a' * c' - b' * b' ≠ 0)
    (h1 : c / (a * c - b * b) = c' / (a' * c' - b' * b')) (h2 : -b / (a * c - b * b) = -b' / (a' * c' - b' * b'))
    (h3 : a / (a * c - b * b) = a' / (a' * c' - b' * b')) : a = a' ∧ b = b' ∧ c = c' := by
  have e : ∀ a b c : K, a * c - b * b ≠ 0 →
      a / (a * c - b * b) * (c / (a * c - b * b)) - -b / (a * c - b * b) * (-b / (a * c - b * b)) = 1 / (a * c - b * b) := by
    intro a b c hd
    field_simp
  have e1 := e a b c hd
  rw [h1, h2, h3, e a' b' c' hd'] at e1
  have e2 : a * c - b * b = a' * c' - b' * b' := by
    rw [one_div, one_div] at e1
    exact (inv_injective e1).symm
  rw [e2] at h1 h2 h3
  refine ⟨(div_left_inj' hd').1 h3, neg_injective ((div_left_inj' hd').1 h2), (div_left_inj' hd').1 h1⟩

/-- the block diagonal factor of a complete sequence of pivot steps: entries bounded, 2x2 blocks dominated by the off-diagonal -/
theorem chain_growth {alpha : K} {n : ℕ} {piv : ℕ → ℤ} {M : ℕ → ℕ → K} {x y} (h : ReflTransGen (BkOne alpha n piv M) x y) (hy : y.1 = n)
    (hx : notSecond piv x.1) (h0 : 0 < alpha) (h1 : alpha < 1) (D : ℕ → ℕ → K) (hD : BkBlockDiag n piv M D x.1) :
    (∀ c, x.1 ≤ c → c < n → twoAt piv c = true → |D c c * D (c + 1) (c + 1)| ≤ alpha ^ 2 * D (c + 1) c ^ 2) ∧
    (4 * alpha ^ 2 ≤ alpha + 1 → ∀ m, MaxOn x.1 n x.2 m → ∀ c c', x.1 ≤ c → c ≤ c' → c' < n →
      |D c c'| ≤ (1 + 1 / alpha) ^ (c - x.1) * m) := by
  have hg1 : 1 ≤ 1 + 1 / alpha := le_add_of_nonneg_right (by positivity)
  induction h using Relation.ReflTransGen.head_induction_on with
  | refl => exact ⟨fun c _ _ => by omega, fun _ m _ c c' _ _ _ => by omega⟩
  | @head x z hs htail ih =>
    have hgrow : 4 * alpha ^ 2 ≤ alpha + 1 → ∀ {m : K}, MaxOn x.1 n x.2 m → _ := fun h2 {m} hm => hs.grow h0 h1 h2 hm
    cases hs with
    | one k kp S T hk hkp hpiv hne hd hl hT hg =>
      simp only at hx hD hgrow ih ⊢
      have hx' : notSecond piv (k + 1) := notSecond_one hx (by omega)
      have htw : twoAt piv k = false := by rw [twoAt_of_notSecond hx]; simp [hpiv]
      obtain ⟨i1, i2⟩ := ih hx' (hD.mono (by omega))
      obtain ⟨d1, d2⟩ := hD.single k le_rfl (by omega) htw hx
      have hDk : D k k = S kp kp := by
        rw [hd, one_div, one_div] at d2
        exact (inv_injective d2).symm
      refine ⟨fun c hc hcn ht => ?_, fun h2 m hm c c' hc hcc hcn => ?_⟩
      · have e : c ≠ k := by rintro rfl; rw [htw] at ht; cases ht
        exact i1 c (by omega) hcn ht
      · have hm0 : 0 ≤ m := (abs_nonneg _).trans (hm kp kp hk hkp hk hkp)
        by_cases e : c = k
        · subst e
          rw [Nat.sub_self, pow_zero, one_mul]
          by_cases e' : c' = c
          · subst e'; rw [hDk]; exact hm kp kp hk hkp hk hkp
          · rw [hD.zero c c' le_rfl (by omega) hcn (by simp [htw]), abs_zero]; exact hm0
        · have := i2 h2 _ (hgrow h2 hm) c c' (by omega) hcc hcn
          rwa [← mul_assoc, ← pow_add, show c - (k + 1) + (k + 1 - k) = c - k by omega] at this
    | two k kp S T hk hkp hpiv hpiv' hdet hd0 hd1 hd2 hl0 hl1 hT hg =>
      simp only at hx hD hgrow ih ⊢
      have hx' : notSecond piv (k + 2) := notSecond_two hx (by omega)
      have htw : twoAt piv k = true := by
        rw [twoAt_of_notSecond hx]
        simp only [hpiv, decide_eq_true_eq]
        omega
      have htw1 : twoAt piv (k + 1) = false := by simp [twoAt, htw]
      obtain ⟨i1, i2⟩ := ih hx' (hD.mono (by omega))
      obtain ⟨q0, q1, q2, q3⟩ := hD.double k le_rfl (by omega) htw
      obtain ⟨D0, D1, D2⟩ := inv2_inj q0.ne hdet.ne (q1.symm.trans hd0) (q2.symm.trans hd1) (q3.symm.trans hd2)
      refine ⟨fun c hc hcn ht => ?_, fun h2 m hm c c' hc hcc hcn => ?_⟩
      · by_cases e : c = k
        · subst e
          rw [D0, D1, D2]
          exact hg.1
        · have e' : c ≠ k + 1 := by rintro rfl; rw [htw1] at ht; cases ht
          exact i1 c (by omega) hcn ht
      · have hm0 : 0 ≤ m := (abs_nonneg _).trans (hm kp kp (by omega) hkp (by omega) hkp)
        by_cases e : c = k
        · subst e
          rw [Nat.sub_self, pow_zero, one_mul]
          by_cases e' : c' = c
          · subst e'; rw [D0]; exact hm c' c' le_rfl hcn le_rfl hcn
          · by_cases e2 : c' = c + 1
            · subst e2
              rw [hD.sym c (c + 1) le_rfl (by omega) (by omega) hcn, D1]
              exact hm kp c (by omega) hkp le_rfl (by omega)
            · rw [hD.zero c c' le_rfl (by omega) hcn (fun h => e2 h.2), abs_zero]; exact hm0
        · by_cases e1 : c = k + 1
          · subst e1
            rw [Nat.add_sub_cancel_left, pow_one]
            refine le_trans ?_ (le_mul_of_one_le_left hm0 hg1)
            by_cases e' : c' = k + 1
            · subst e'; rw [D2]; exact hm kp kp (by omega) hkp (by omega) hkp
            · rw [hD.zero (k + 1) c' (by omega) (by omega) hcn (by simp [htw1]), abs_zero]; exact hm0
          · have := i2 h2 _ (hgrow h2 hm) c c' (by omega) hcc hcn
            rwa [← mul_assoc, ← pow_add, show c - (k + 2) + (k + 2 - k) = c - k by omega] at this

/-- `(|L| |D| |Lᵀ|) i j` for the rows and columns from `k` on -/
theorem chain_absBk {alpha : K} {n : ℕ} {piv : ℕ → ℤ} {M : ℕ → ℕ → K} {x y} (h : ReflTransGen (BkOne alpha n piv M) x y) (hy : y.1 = n)
    (hs : SymOn x.1 n x.2) (hx : notSecond piv x.1) (h0 : 0 < alpha) (h1 : alpha < 1) (h2 : 4 * alpha ^ 2 ≤ alpha + 1)
    (D : ℕ → ℕ → K) (hD : BkBlockDiag n piv M D x.1) {C : K} (hC1 : 1 ≤ C * alpha) (hC2 : 2 * (1 + alpha) ≤ C * (1 - alpha) ^ 2) :
    ∀ m, MaxOn x.1 n x.2 m → ∀ i j, x.1 ≤ i → i < n → x.1 ≤ j → j < n →
      (∑ c ∈ Finset.Ico x.1 n, ∑ c' ∈ Finset.Ico x.1 n,
        |unitLow (convMat n piv M) i c| * |D c c'| * |unitLow (convMat n piv M) j c'|) ≤
      C * m * ∑ c ∈ Finset.Ico x.1 n, (1 + 1 / alpha) ^ (c - x.1) := by
  have hC0 : 0 ≤ C := by
    by_contra hc
    have := mul_neg_of_neg_of_pos (not_le.1 hc) h0
    linarith
  have hgpos : 0 < 1 + 1 / alpha := by positivity
  have hshift : ∀ k d : ℕ, (∑ c ∈ Finset.Ico (k + d) n, (1 + 1 / alpha) ^ (c - k)) =
      (1 + 1 / alpha) ^ d * ∑ c ∈ Finset.Ico (k + d) n, (1 + 1 / alpha) ^ (c - (k + d)) := by
    intro k d
    rw [Finset.mul_sum]
    refine Finset.sum_congr rfl fun c hc => ?_
    have := (Finset.mem_Ico.1 hc).1
    rw [← pow_add, show d + (c - (k + d)) = c - k by omega]
  induction h using Relation.ReflTransGen.head_induction_on with
  | refl => intro m _ i j h1 h2; omega
  | @head x z hs1 htail ih =>
    have hpath := PivPath.of_chain htail hy
    have hs' := hs1.sym hs
    have hgrow : ∀ {m : K}, MaxOn x.1 n x.2 m → _ := fun {m} hm => hs1.grow h0 h1 h2 hm
    cases hs1 with
    | one k kp S T hk hkp hpiv hne hd hl hT hg =>
      simp only at hs hx hs' hpath hD hgrow ih ⊢
      have hx' : notSecond piv (k + 1) := notSecond_one hx (by omega)
      have htw : twoAt piv k = false := by rw [twoAt_of_notSecond hx]; simp [hpiv]
      obtain ⟨hfix, hmem⟩ := travPerm_fix hpath
      generalize hπ : travPerm n piv (k + 1) = π at hfix hmem
      have ih' := ih hs' hx' (hD.mono (by omega))
      generalize hLd : unitLow (convMat n piv M) = L at ih' ⊢
      have hLk : ∀ i, k ≤ i → i < n → L i k = S (swap k kp (π i)) kp / S kp kp := by
        intro i hi hin
        rw [← hLd]
        by_cases e : i = k
        · subst e
          simp only [unitLow, if_true]
          rw [hfix _ (by omega), Equiv.swap_apply_left, div_self hne]
        · obtain ⟨m1, m2⟩ := hmem i (by omega) hin
          simp only [unitLow, e, if_false, show k < i by omega, if_true, convMat, htw, Bool.false_eq_true, false_and, nextCol, hπ]
          exact hl _ (by omega) m2
      have hL0 : ∀ c, k < c → L k c = 0 := by
        intro c hc
        rw [← hLd]
        simp only [unitLow]
        rw [if_neg (by omega), if_neg (by omega)]
      obtain ⟨d1, d2⟩ := hD.single k le_rfl (by omega) htw hx
      have hDk : D k k = S kp kp := by
        rw [hd, one_div, one_div] at d2
        exact (inv_injective d2).symm
      have hm' : ∀ i, k ≤ i → i < n → k ≤ swap k kp (π i) ∧ swap k kp (π i) < n := by
        intro i hi hin
        refine swap_mem le_rfl (by omega) hk hkp ?_ ?_ <;> by_cases e : i = k
        · rw [e, hfix k (by omega)]
        · have := hmem i (by omega) hin; omega
        · rw [e, hfix k (by omega)]; omega
        · exact (hmem i (by omega) hin).2
      intro m hm i j hi hin hj hjn
      have hm0 : 0 ≤ m := (abs_nonneg _).trans (hm kp kp hk hkp hk hkp)
      rw [sum_peel k n (by omega), Finset.sum_eq_sum_Ico_succ_bot (show k < n by omega), Nat.sub_self, pow_zero, hshift k 1, pow_one]
      have z1 : ∑ c' ∈ Finset.Ico (k + 1) n, |L i k| * |D k c'| * |L j c'| = 0 := by
        refine Finset.sum_eq_zero fun c' hc' => ?_
        obtain ⟨c1, c2⟩ := Finset.mem_Ico.1 hc'
        rw [hD.zero k c' le_rfl (by omega) c2 (by simp [htw])]; simp
      have z2 : ∑ c ∈ Finset.Ico (k + 1) n, |L i c| * |D c k| * |L j k| = 0 := by
        refine Finset.sum_eq_zero fun c' hc' => ?_
        obtain ⟨c1, c2⟩ := Finset.mem_Ico.1 hc'
        rw [hD.sym c' k (by omega) c2 le_rfl (by omega), hD.zero k c' le_rfl (by omega) c2 (by simp [htw])]; simp
      have f1 : |L i k| * |D k k| * |L j k| ≤ C * m := by
        have g1 := hg m hm _ _ (hm' i hi hin).1 (hm' i hi hin).2 (hm' j hj hjn).1 (hm' j hj hjn).2
        have hp : 0 < |S kp kp| := abs_pos.2 hne
        rw [hLk i hi hin, hLk j hj hjn, hDk, abs_div, abs_div, div_mul_cancel₀ _ hp.ne', ← mul_div_assoc, div_le_iff₀ hp, ← abs_mul]
        refine le_of_mul_le_mul_left (g1.trans ?_) h0
        have := mul_le_mul_of_nonneg_right hC1 (mul_nonneg hp.le hm0)
        linarith
      have f2 : (∑ c ∈ Finset.Ico (k + 1) n, ∑ c' ∈ Finset.Ico (k + 1) n, |L i c| * |D c c'| * |L j c'|) ≤
          C * ((1 + 1 / alpha) * m) * ∑ c ∈ Finset.Ico (k + 1) n, (1 + 1 / alpha) ^ (c - (k + 1)) := by
        by_cases e : i = k ∨ j = k
        · rw [Finset.sum_eq_zero fun c hc => Finset.sum_eq_zero fun c' hc' => ?_]
          · exact mul_nonneg (mul_nonneg hC0 (mul_nonneg hgpos.le hm0)) (Finset.sum_nonneg fun c _ => pow_nonneg hgpos.le _)
          · have := (Finset.mem_Ico.1 hc').1
            have := (Finset.mem_Ico.1 hc).1
            rcases e with rfl | rfl
            · rw [hL0 c (by omega)]; simp
            · rw [hL0 c' (by omega)]; simp
        · have hgm := hgrow hm
          rw [Nat.add_sub_cancel_left, pow_one] at hgm
          exact ih' _ hgm i j (by omega) hin (by omega) hjn
      rw [z1, z2]
      linarith
    | two k kp S T hk hkp hpiv hpiv' hdet hd0 hd1 hd2 hl0 hl1 hT hg =>
      simp only at hs hx hs' hpath hD hgrow ih ⊢
      have hx' : notSecond piv (k + 2) := notSecond_two hx (by omega)
      have htw : twoAt piv k = true := by rw [twoAt_of_notSecond hx, hpiv]; simp; omega
      have htw1 : twoAt piv (k + 1) = false := hx'
      obtain ⟨hfix, hmem⟩ := travPerm_fix hpath
      generalize hπ : travPerm n piv (k + 2) = π at hfix hmem
      have ih' := ih hs' hx' (hD.mono (by omega))
      generalize hLd : unitLow (convMat n piv M) = L at ih' ⊢
      obtain ⟨q0, q1, q2, q3⟩ := hD.double k le_rfl (by omega) htw
      obtain ⟨D0, D1, D2⟩ := inv2_inj q0.ne hdet.ne (q1.symm.trans hd0) (q2.symm.trans hd1) (q3.symm.trans hd2)
      have hq : S k kp = S kp k := hs k kp le_rfl (by omega) (by omega) hkp
      have hσk : swap (k + 1) kp k = k := Equiv.swap_apply_of_ne_of_ne (by omega) (by omega)
      have hdn := hdet.ne
      have hLk : ∀ i, k ≤ i → i < n → |L i k| = bkL1 k kp S (swap (k + 1) kp (π i)) := by
        intro i hi hin
        unfold bkL1
        congr 1
        rw [← hLd]
        by_cases e : i = k
        · subst e
          simp only [unitLow, if_true]
          rw [hfix _ (by omega), hσk, hq, eq_div_iff hdn]; ring
        · by_cases e1 : i = k + 1
          · subst e1
            simp only [unitLow, e, if_false, show k < k + 1 by omega, if_true, convMat, htw, and_self]
            rw [hfix _ (by omega), Equiv.swap_apply_left, eq_div_iff hdn]; ring
          · obtain ⟨m1, m2⟩ := hmem i (by omega) hin
            simp only [unitLow, e, if_false, show k < i by omega, if_true, convMat, htw, e1, and_false, nextCol, hπ]
            exact hl0 _ (by omega) m2
      have hLk1 : ∀ i, k ≤ i → i < n → |L i (k + 1)| = bkL2 k kp S (swap (k + 1) kp (π i)) := by
        intro i hi hin
        unfold bkL2
        congr 1
        rw [← hLd]
        by_cases e : i = k
        · subst e
          simp only [unitLow, show i ≠ i + 1 by omega, if_false, show ¬ (i + 1 < i) by omega]
          rw [hfix _ (by omega), hσk, hq, eq_div_iff hdn]; ring
        · by_cases e1 : i = k + 1
          · subst e1
            simp only [unitLow, if_true]
            rw [hfix _ (by omega), Equiv.swap_apply_left, eq_div_iff hdn]; ring
          · obtain ⟨m1, m2⟩ := hmem i (by omega) hin
            simp only [unitLow, e1, if_false, show k + 1 < i by omega, if_true, convMat, htw1, Bool.false_eq_true, false_and, nextCol, hπ]
            exact hl1 _ (by omega) m2
      have hL0 : ∀ r c, k ≤ r → r ≤ k + 1 → k + 1 < c → L r c = 0 := by
        intro r c hr hr1 hc
        rw [← hLd]
        simp only [unitLow]
        rw [if_neg (by omega), if_neg (by omega)]
      have hm' : ∀ i, k ≤ i → i < n → k ≤ swap (k + 1) kp (π i) ∧ swap (k + 1) kp (π i) < n := by
        intro i hi hin
        refine swap_mem (by omega) (by omega) (by omega) hkp ?_ ?_ <;> by_cases e : i < k + 2
        · rw [hfix i e]; exact hi
        · have := hmem i (by omega) hin; omega
        · rw [hfix i e]; exact hin
        · exact (hmem i (by omega) hin).2
      intro m hm i j hi hin hj hjn
      have hm0 : 0 ≤ m := (abs_nonneg _).trans (hm kp kp (by omega) hkp (by omega) hkp)
      have hz : ∀ r c, k ≤ r → r ≤ k + 1 → k + 1 < c → c < n → D r c = 0 := by
        intro r c hr hr1 hc hcn
        refine hD.zero r c hr (by omega) hcn ?_
        rintro ⟨a, b⟩
        obtain rfl | rfl : r = k ∨ r = k + 1 := by omega
        · omega
        · rw [htw1] at a; cases a
      rw [sum_peel k n (by omega), sum_peel (k + 1) n (by omega), Finset.sum_eq_sum_Ico_succ_bot (show k + 1 < n by omega),
        Finset.sum_eq_sum_Ico_succ_bot (show k + 1 < n by omega) (fun c => |L i c| * |D c k| * |L j k|),
        Finset.sum_eq_sum_Ico_succ_bot (show k < n by omega), Finset.sum_eq_sum_Ico_succ_bot (show k + 1 < n by omega) (fun c => _ ^ (c - k)),
        Nat.sub_self, pow_zero, show k + 1 + 1 = k + 2 by omega, hshift k 2]
      have y1 : ∀ r c, k ≤ r → r ≤ k + 1 → c ∈ Finset.Ico (k + 2) n → D r c = 0 ∧ D c r = 0 := by
        intro r c hr hr1 hc
        obtain ⟨c1, c2⟩ := Finset.mem_Ico.1 hc
        have := hz r c hr hr1 (by omega) c2
        exact ⟨this, by rw [hD.sym c r (by omega) c2 hr (by omega), this]⟩
      have z1 : ∀ r, k ≤ r → r ≤ k + 1 → ∑ c' ∈ Finset.Ico (k + 2) n, |L i r| * |D r c'| * |L j c'| = 0 := by
        intro r hr hr1
        refine Finset.sum_eq_zero fun c' hc' => ?_
        rw [(y1 r c' hr hr1 hc').1]; simp
      have z2 : ∀ r, k ≤ r → r ≤ k + 1 → ∑ c ∈ Finset.Ico (k + 2) n, |L i c| * |D c r| * |L j r| = 0 := by
        intro r hr hr1
        refine Finset.sum_eq_zero fun c' hc' => ?_
        rw [(y1 r c' hr hr1 hc').2]; simp
      have f1 : |L i k| * |D k k| * |L j k| + |L i k| * |D k (k + 1)| * |L j (k + 1)| + |L i (k + 1)| * |D (k + 1) k| * |L j k| +
          |L i (k + 1)| * |D (k + 1) (k + 1)| * |L j (k + 1)| ≤ C * m := by
        have g1 := hg.2.2 m hm _ _ (hm' i hi hin).1 (hm' i hi hin).2 (hm' j hj hjn).1 (hm' j hj hjn).2
        rw [hD.sym k (k + 1) le_rfl (by omega) (by omega) (by omega), D0, D1, D2, hLk i hi hin, hLk j hj hjn, hLk1 i hi hin, hLk1 j hj hjn]
        have hp : 0 < (1 - alpha) ^ 2 := pow_pos (by linarith) 2
        refine le_of_mul_le_mul_left (g1.trans ?_) hp
        have := mul_le_mul_of_nonneg_right hC2 hm0
        linarith
      have f2 : (∑ c ∈ Finset.Ico (k + 2) n, ∑ c' ∈ Finset.Ico (k + 2) n, |L i c| * |D c c'| * |L j c'|) ≤
          C * ((1 + 1 / alpha) ^ 2 * m) * ∑ c ∈ Finset.Ico (k + 2) n, (1 + 1 / alpha) ^ (c - (k + 2)) := by
        by_cases e : i ≤ k + 1 ∨ j ≤ k + 1
        · rw [Finset.sum_eq_zero fun c hc => Finset.sum_eq_zero fun c' hc' => ?_]
          · exact mul_nonneg (mul_nonneg hC0 (mul_nonneg (pow_nonneg hgpos.le _) hm0)) (Finset.sum_nonneg fun c _ => pow_nonneg hgpos.le _)
          · have := (Finset.mem_Ico.1 hc').1
            have := (Finset.mem_Ico.1 hc).1
            rcases e with e | e
            · rw [hL0 i c hi e (by omega)]; simp
            · rw [hL0 j c' hj e (by omega)]; simp
        · have hgm := hgrow hm
          rw [Nat.add_sub_cancel_left] at hgm
          exact ih' _ hgm i j (by omega) hin (by omega) hjn
      rw [z1 k le_rfl (by omega), z1 (k + 1) (by omega) le_rfl, z2 k le_rfl (by omega), z2 (k + 1) (by omega) le_rfl]
      have f3 : 0 ≤ C * m * (1 + 1 / alpha) ^ (k + 1 - k) := mul_nonneg (mul_nonneg hC0 hm0) (pow_nonneg hgpos.le _)
      linarith

end ProxNLP
