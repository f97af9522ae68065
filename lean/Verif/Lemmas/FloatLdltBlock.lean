import Verif.Lemmas.FloatLdlt

/-! Error analysis of the recursive factorisation and of the solve. -/

set_option linter.unusedSectionVars false
namespace ProxNLP

open Spec

variable {K : Type} [Field K] [LinearOrder K] [IsStrictOrderedRing K]

theorem flDenseLdlt_near (R : Rounding K) (he : R.eta = 0) (q : LdltOrders) {d N : ℕ} (hq : OrdersSum q N d) (l : ℕ) :
    ∀ (o n : ℕ) (A : ℕ → ℕ → K), n ≤ N → n ≤ 128 * 2 ^ l → (∀ k, k + 1 < n → flDenseLdlt R q o n A k k ≠ 0) →
    NearLdl (vfac R ^ ((d + 2) * l + d + 4)) n A (flDenseLdlt R q o n A) := by
  induction l with
  | zero =>
    intro o n A hN hn hp
    rw [flDenseLdlt, dif_pos (by omega)] at hp ⊢
    refine (flLdltUnblocked_near R he q o n (fun j hj => hq.pivot o n j hN hj) (fun j i h1 h2 => hq.column o n j i hN h1 h2) A hp).mono ?_
    exact (gpow_le_vpow R _).trans (vpow_mono R (by omega))
  | succ l ih =>
    intro o n A hN hn hp
    rw [flDenseLdlt] at hp ⊢
    by_cases hn' : n ≤ 128
    · rw [dif_pos hn'] at hp ⊢
      refine (flLdltUnblocked_near R he q o n (fun j hj => hq.pivot o n j hN hj) (fun j i h1 h2 => hq.column o n j i hN h1 h2) A hp).mono ?_
      exact (gpow_le_vpow R _).trans (vpow_mono R (by omega))
    · rw [dif_neg hn'] at hp ⊢
      simp only at hp ⊢
      have hright := fun i c => hq.right o n i c hN
      have hschur := fun i c => hq.schur o n i c hN
      obtain ⟨bs, hbs⟩ : ∃ bs, bs = (n + 1) / 2 := ⟨_, rfl⟩
      rw [← hbs] at hp ⊢ hright hschur
      have hpow : 128 * 2 ^ (l + 1) = 2 * (128 * 2 ^ l) := by ring
      have hb3 : bs < n := by omega
      have ih0 := ih o bs A (by omega) (by omega)
      generalize hr0 : flDenseLdlt R q o bs A = r0 at *
      set A1 := writeDiagBlock 0 bs A r0 with hA1
      set A2 := flLdltSchur R (q.schur o n) n bs (flLdltScaleBlock R n bs (ldltCopy n bs (flSolveRight R (q.right o n) n bs A1))) with hA2
      have ih1 := ih (o + bs) (n - bs) (fun i c => A2 (bs + i) (bs + c)) (by omega) (by omega)
      generalize hr1 : flDenseLdlt R q (o + bs) (n - bs) (fun i c => A2 (bs + i) (bs + c)) = r1 at *
      set M := writeDiagBlock bs (n - bs) A2 r1 with hM
      have m00 : ∀ i < bs, ∀ c < bs, M i c = r0 i c := by
        intro i hi c hc
        simp only [hM, hA2, hA1, writeDiagBlock, flLdltSchur, flLdltScaleBlock, ldltCopy, flSolveRight]
        rw [if_neg (by omega), if_neg (by omega), if_neg (by omega), if_neg (by omega), if_neg (by omega), if_pos (by omega)]
        rfl
      have a1_00 : ∀ i < bs, ∀ c < bs, A1 i c = r0 i c := by
        intro i hi c hc
        simp only [hA1, writeDiagBlock]
        rw [if_pos (by omega)]
        rfl
      have a1_out : ∀ i c, bs ≤ i ∨ bs ≤ c → A1 i c = A i c := by
        intro i c h
        simp only [hA1, writeDiagBlock]
        rw [if_neg (by omega)]
      have m11 : ∀ i < n - bs, ∀ c < n - bs, M (bs + i) (bs + c) = r1 i c := by
        intro i hi c hc
        simp only [hM, writeDiagBlock]
        rw [if_pos (by omega), Nat.add_sub_cancel_left, Nat.add_sub_cancel_left]
      -- the solution of the triangular systems, before the scaling
      let y : ℕ → ℕ → K := fun i c => flFwdUnit R (q.right o n i) bs A1 (fun c => A1 i c) c
      have m10 : ∀ i, bs ≤ i → i < n → ∀ c < bs, M i c = R.rnd (y i c * R.rnd (1 / r0 c c)) := by
        intro i hi hin c hc
        simp only [hM, hA2, writeDiagBlock, flLdltSchur, flLdltScaleBlock, ldltCopy, flSolveRight]
        rw [if_neg (by omega), if_neg (by omega), if_pos (by omega), if_neg (by omega), if_pos (by omega), if_neg (by omega),
          if_neg (by omega), a1_00 c hc c hc]
      have hpiv : ∀ k < bs, r0 k k ≠ 0 := by
        intro k hk
        have := hp k (by omega)
        rwa [m00 k hk k hk] at this
      have g0 := ih0 (fun k hk => hpiv k (by omega))
      have g1 := ih1 (fun k hk => by
        have := hp (bs + k) (by omega)
        rwa [m11 k (by omega) k (by omega)] at this)
      have hscale : ∀ i, bs ≤ i → i < n → ∀ c < bs, |M i c * M c c - y i c| ≤ ((1 + R.u) ^ 2 - 1) * |y i c| ∧
          |y i c - M i c * M c c| ≤ (vfac R ^ 2 - 1) * |M i c * M c c| := by
        intro i hi hin c hc
        rw [m10 i hi hin c hc, m00 c hc c hc]
        exact scale_err R he _ (hpiv c hc)
      have hV2 := one_le_vpow R 2
      -- products with the unscaled rows
      have hprod : ∀ i, bs ≤ i → i < n → ∀ k < bs, ∀ z, |z * y i k - z * (M i k * M k k)| ≤ (vfac R ^ 2 - 1) * |z * (M i k * M k k)| := by
        intro i hi hin k hk z
        have := mul_le_mul_of_nonneg_left (hscale i hi hin k hk).2 (abs_nonneg z)
        rw [← abs_mul, mul_sub] at this
        rw [abs_mul z (M i k * M k k)]
        linarith
      have hsplit : n = bs + (n - bs) := by omega
      have key : NearLdl (vfac R ^ ((d + 2) * (l + 1) + d + 4)) (bs + (n - bs)) A M := by
        refine NearLdl.append (G' := vfac R ^ ((d + 2) * l + d + 4)) (G2 := vfac R ^ (d + 2)) (A2 := fun i c => A2 (bs + i) (bs + c))
          (one_le_vpow R _) (one_le_vpow R _) ?_ ?_ ?_ ?_ ?_
        · rw [← pow_add]
          exact le_of_eq (by congr 1; ring)
        · exact (g0.congr (fun _ _ _ _ => rfl) fun i hi c hc => m00 i hi c (by omega)).mono
            (vpow_mono R (by nlinarith))
        · intro i hi c hc
          obtain ⟨x, hx1, hx2⟩ := flFwdUnit_spec R (q.right o n (bs + i)) bs A1 (fun c => A1 (bs + i) c) c hc
          have k1 := subst_err R he (hright (bs + i) c hc (by omega)) (A1 (bs + i) c) (fun k => A1 c k)
            (fun k => y (bs + i) k) x hx1
          rw [← hx2, a1_out _ _ (Or.inl (by omega))] at k1
          have k1' := k1.trans (mul_le_mul_of_nonneg_right (sub_le_sub_right (gpow_le_vpow R d) 1)
            (add_nonneg (abs_nonneg _) (Finset.sum_nonneg fun _ _ => abs_nonneg _)))
          have k2 := pert_sum (f := fun k => M (bs + i) k * M k k * M c k) (one_le_vpow R d) hV2 (fun k hk => ?_) k1'
          · have k3 := near_mul k2 (abs_sub_sum_le _ _ _) (one_le_G R 2) (hscale (bs + i) (by omega) (by omega) c hc).1
            refine k3.trans (mul_le_mul_of_nonneg_right (sub_le_sub_right ?_ 1)
              (add_nonneg (abs_nonneg _) (Finset.sum_nonneg fun _ _ => abs_nonneg _)))
            have : vfac R ^ d * vfac R ^ 2 * (1 + R.u) ^ 2 ≤ vfac R ^ d * vfac R ^ 2 * vfac R ^ 2 :=
              mul_le_mul_of_nonneg_left (gpow_le_vpow R 2) (mul_nonneg (by linarith [one_le_vpow R d]) (by linarith))
            refine this.trans ?_
            rw [← pow_add, ← pow_add]
            exact vpow_mono R (by nlinarith)
          · have := hprod (bs + i) (by omega) (by omega) k (by omega) (A1 c k)
            rw [a1_00 c hc k (by omega), ← m00 c hc k (by omega)] at this ⊢
            have e : M (bs + i) k * M k k * M c k = M c k * (M (bs + i) k * M k k) := by ring
            simp only [e]
            exact this
        · intro i hi c hc
          have e0 : A2 (bs + i) (bs + c) = (q.schur o n (bs + i) (bs + c)).eval R (A (bs + i) (bs + c)) (fun k =>
              (-flLdltScaleBlock R n bs (ldltCopy n bs (flSolveRight R (q.right o n) n bs A1)) (bs + i) k,
                flLdltScaleBlock R n bs (ldltCopy n bs (flSolveRight R (q.right o n) n bs A1)) k (bs + c))) := by
            simp only [hA2, flLdltSchur]
            rw [if_pos (by omega)]
            congr 1
            simp only [flLdltScaleBlock, ldltCopy, flSolveRight]
            rw [if_neg (by omega), if_neg (by omega), if_neg (by omega), a1_out _ _ (Or.inl (by omega))]
          have e1 : ∀ k < bs, flLdltScaleBlock R n bs (ldltCopy n bs (flSolveRight R (q.right o n) n bs A1)) (bs + i) k = M (bs + i) k := by
            intro k hk
            rw [m10 (bs + i) (by omega) (by omega) k hk]
            simp only [flLdltScaleBlock, ldltCopy, flSolveRight]
            rw [if_pos (by omega), if_neg (by omega), if_pos (by omega), if_neg (by omega), if_neg (by omega), a1_00 k hk k hk]
          have e2 : ∀ k < bs, flLdltScaleBlock R n bs (ldltCopy n bs (flSolveRight R (q.right o n) n bs A1)) k (bs + c) = y (bs + c) k := by
            intro k hk
            simp only [flLdltScaleBlock, ldltCopy, flSolveRight]
            rw [if_neg (by omega), if_pos (by omega), if_pos (by omega)]
          have k1 := subst_err R he (hschur (bs + i) (bs + c) (by omega) (by omega)) (A (bs + i) (bs + c))
            (fun k => flLdltScaleBlock R n bs (ldltCopy n bs (flSolveRight R (q.right o n) n bs A1)) (bs + i) k)
            (fun k => y (bs + c) k) _ e2
          rw [← e0] at k1
          have k1' := k1.trans (mul_le_mul_of_nonneg_right (sub_le_sub_right (gpow_le_vpow R d) 1)
            (add_nonneg (abs_nonneg _) (Finset.sum_nonneg fun _ _ => abs_nonneg _)))
          have k2 := pert_sum (f := fun k => M (bs + i) k * M k k * M (bs + c) k) (one_le_vpow R d) hV2 (fun k hk => ?_) k1'
          · rwa [← pow_add] at k2
          · have := hprod (bs + c) (by omega) (by omega) k hk (M (bs + i) k)
            have e : M (bs + i) k * M k k * M (bs + c) k = M (bs + i) k * (M (bs + c) k * M k k) := by ring
            simp only [e, e1 k hk]
            exact this
        · exact g1.congr (fun _ _ _ _ => rfl) fun i hi c hc => m11 i hi c (by omega)
      rw [← hsplit] at key
      exact key

/-! ### from the factors back to the data -/

/-- `G / (2 - G)` -/
def kap (G : K) : K := G / (2 - G)

/-- a bound relative to the datum becomes one relative to the computed terms -/
theorem flip_datum {v a s t G : K} (h1 : 1 ≤ G) (h2 : G < 2) (hs : |s| ≤ t) (h : |v - (a - s)| ≤ (G - 1) * (|a| + t)) :
    |a - (s + v)| ≤ (kap G - 1) * (t + |v|) ∧ |a| ≤ kap G * (t + |v|) := by
  have h0 : 0 < 2 - G := by linarith
  have e1 : |a - (s + v)| = |v - (a - s)| := by rw [abs_sub_comm]; congr 1; ring
  have e2 : |a| ≤ |a - (s + v)| + (|s| + |v|) := by
    have := abs_add_le (a - (s + v)) (s + v)
    have h3 := abs_add_le s v
    rw [sub_add_cancel] at this
    linarith
  have k : kap G - 1 = (2 * G - 2) / (2 - G) := by rw [kap]; field_simp; ring
  have ht : 0 ≤ t := (abs_nonneg s).trans hs
  have ha : |a| ≤ kap G * (t + |v|) := by
    rw [kap, div_mul_eq_mul_div, le_div_iff₀ h0]
    have : 0 ≤ (G - 1) * |v| := mul_nonneg (by linarith) (abs_nonneg v)
    linarith
  refine ⟨?_, ha⟩
  rw [e1]
  refine h.trans ?_
  rw [k, div_mul_eq_mul_div, le_div_iff₀ h0]
  have h5 := mul_le_mul_of_nonneg_left ha (mul_nonneg (by linarith) h0.le : 0 ≤ (G - 1) * (2 - G))
  have e5 : (G - 1) * (2 - G) * (kap G * (t + |v|)) = (G - 1) * G * (t + |v|) := by rw [kap]; field_simp
  rw [e5] at h5
  have h6 : 0 ≤ (G - 1) * (2 - G) * |v| := mul_nonneg (mul_nonneg (by linarith) h0.le) (abs_nonneg v)
  nlinarith

theorem one_le_kap {G : K} (h1 : 1 ≤ G) (h2 : G < 2) : 1 ≤ kap G := by
  rw [kap, le_div_iff₀ (by linarith)]
  linarith

theorem kap_mono {G G' : K} (h : G ≤ G') (h2 : G' < 2) : kap G ≤ kap G' := by
  rw [kap, kap, div_le_div_iff₀ (by linarith) (by linarith)]
  nlinarith

/-- the lower entries of `L D Lᵀ` -/
theorem prodLdl_lower (n : ℕ) (M : ℕ → ℕ → K) {i c : ℕ} (hi : i < n) (hc : c ≤ i) :
    prodLdl n M i c = ∑ k ∈ Finset.range c, M i k * M k k * M c k + leadLd M i c ∧
    absLdl n M i c = ∑ k ∈ Finset.range c, |M i k * M k k * M c k| + |leadLd M i c| := by
  have h0 : ∀ k, c < k → unitLower M c k = 0 := fun k hk => by
    simp only [unitLower]; rw [if_neg (by omega), if_neg (by omega)]
  have h1 : ∀ k < c, unitLower M c k = M c k := fun k hk => by
    simp only [unitLower]; rw [if_neg (by omega), if_pos hk]
  have h2 : ∀ k < c, unitLower M i k = M i k := fun k hk => by
    simp only [unitLower]; rw [if_neg (by omega), if_pos (by omega)]
  have h3 : unitLower M c c = 1 := by simp [unitLower]
  have h4 : leadLd M i c = unitLower M i c * M c c := by
    simp only [leadLd, unitLower]
    by_cases h : i = c
    · rw [if_pos h, if_pos h, one_mul]
    · rw [if_neg h, if_neg h, if_pos (by omega)]
  have hsub : Finset.range (c + 1) ⊆ Finset.range n := Finset.range_mono (by omega)
  constructor
  · rw [prodLdl, ← Finset.sum_subset hsub, Finset.sum_range_succ, h3, mul_one, h4]
    · congr 1
      refine Finset.sum_congr rfl fun k hk => ?_
      rw [Finset.mem_range] at hk
      rw [h1 k hk, h2 k hk]
    · intro k _ hk
      rw [Finset.mem_range] at hk
      rw [h0 k (by omega), mul_zero]
  · rw [absLdl, ← Finset.sum_subset hsub, Finset.sum_range_succ, h3, abs_one, mul_one, h4, abs_mul]
    · congr 1
      refine Finset.sum_congr rfl fun k hk => ?_
      rw [Finset.mem_range] at hk
      rw [h1 k hk, h2 k hk, abs_mul, abs_mul]
    · intro k _ hk
      rw [Finset.mem_range] at hk
      rw [h0 k (by omega), abs_zero, mul_zero]

theorem prodLdl_symm (n : ℕ) (M : ℕ → ℕ → K) (i j : ℕ) : prodLdl n M i j = prodLdl n M j i ∧ absLdl n M i j = absLdl n M j i :=
  ⟨Finset.sum_congr rfl fun _ _ => by ring, Finset.sum_congr rfl fun _ _ => by ring⟩

theorem NearLdl.entries {G : K} (h1 : 1 ≤ G) (h2 : G < 2) {n : ℕ} {A M : ℕ → ℕ → K} (h : NearLdl G n A M) :
    ∀ i < n, ∀ j < n, |matCoeff A i j - prodLdl n M i j| ≤ (kap G - 1) * absLdl n M i j := by
  have low : ∀ i < n, ∀ c ≤ i, |A i c - prodLdl n M i c| ≤ (kap G - 1) * absLdl n M i c := by
    intro i hi c hc
    rw [(prodLdl_lower n M hi hc).1, (prodLdl_lower n M hi hc).2]
    exact (flip_datum h1 h2 (Finset.abs_sum_le_sum_abs _ _) (h i hi c hc)).1
  intro i hi j hj
  simp only [matCoeff]
  split
  · exact low i hi j (by omega)
  · rw [(prodLdl_symm n M i j).1, (prodLdl_symm n M i j).2]
    exact low j hj i (by omega)

/-! ### solve -/

theorem unit_row (n : ℕ) (M : ℕ → ℕ → K) (x : ℕ → K) {i : ℕ} (hi : i < n) :
    ∑ k ∈ Finset.range n, unitLower M i k * x k = ∑ k ∈ Finset.range i, M i k * x k + x i ∧
    ∑ k ∈ Finset.range n, |unitLower M i k| * |x k| = ∑ k ∈ Finset.range i, |M i k * x k| + |x i| := by
  have hsub : Finset.range (i + 1) ⊆ Finset.range n := Finset.range_mono (by omega)
  have h0 : ∀ k, i < k → unitLower M i k = 0 := fun k hk => by
    simp only [unitLower]; rw [if_neg (by omega), if_neg (by omega)]
  have h1 : ∀ k < i, unitLower M i k = M i k := fun k hk => by
    simp only [unitLower]; rw [if_neg (by omega), if_pos hk]
  have h3 : unitLower M i i = 1 := by simp [unitLower]
  constructor
  · rw [← Finset.sum_subset hsub, Finset.sum_range_succ, h3, one_mul]
    · congr 1
      exact Finset.sum_congr rfl fun k hk => by rw [h1 k (Finset.mem_range.1 hk)]
    · intro k _ hk
      rw [Finset.mem_range] at hk
      rw [h0 k (by omega), zero_mul]
  · rw [← Finset.sum_subset hsub, Finset.sum_range_succ, h3, abs_one, one_mul]
    · congr 1
      exact Finset.sum_congr rfl fun k hk => by rw [h1 k (Finset.mem_range.1 hk), abs_mul]
    · intro k _ hk
      rw [Finset.mem_range] at hk
      rw [h0 k (by omega), abs_zero, zero_mul]

theorem unit_col (n : ℕ) (M : ℕ → ℕ → K) (x : ℕ → K) {i : ℕ} (hi : i < n) :
    ∑ k ∈ Finset.range n, unitLower M k i * x k = ∑ k ∈ Finset.range (n - 1 - i), M (i + 1 + k) i * x (i + 1 + k) + x i ∧
    ∑ k ∈ Finset.range n, |unitLower M k i| * |x k| = ∑ k ∈ Finset.range (n - 1 - i), |M (i + 1 + k) i * x (i + 1 + k)| + |x i| := by
  have e : n = (i + 1) + (n - 1 - i) := by omega
  have h0 : ∀ k < i, unitLower M k i = 0 := fun k hk => by
    simp only [unitLower]; rw [if_neg (by omega), if_neg (by omega)]
  have h1 : ∀ k, unitLower M (i + 1 + k) i = M (i + 1 + k) i := fun k => by
    simp only [unitLower]; rw [if_neg (by omega), if_pos (by omega)]
  have h3 : unitLower M i i = 1 := by simp [unitLower]
  constructor
  · conv_lhs => rw [e]
    rw [Finset.sum_range_add, Finset.sum_range_succ, h3, one_mul, Finset.sum_eq_zero fun k hk => by
      rw [h0 k (Finset.mem_range.1 hk), zero_mul], zero_add, add_comm]
    congr 1
    exact Finset.sum_congr rfl fun k _ => by rw [h1]
  · conv_lhs => rw [e]
    rw [Finset.sum_range_add, Finset.sum_range_succ, h3, abs_one, one_mul, Finset.sum_eq_zero fun k hk => by
      rw [h0 k (Finset.mem_range.1 hk), abs_zero, zero_mul], zero_add, add_comm]
    congr 1
    exact Finset.sum_congr rfl fun k _ => by rw [h1, abs_mul]

theorem flDenseSolve_err (R : Rounding K) (he : R.eta = 0) (q : LdltOrders) {d n : ℕ} (hf : ∀ i < n, SumsTo (q.fwd i) i d)
    (hb : ∀ i < n, SumsTo (q.bwd i) (n - 1 - i) d) (hd : (1 + R.u) ^ d < 2) {tiny : K} (ht : 0 ≤ tiny) (M : ℕ → ℕ → K) (b : ℕ → K)
    (hp : ∀ k < n, tiny < |M k k|) :
    ∀ i < n, |b i - ∑ j ∈ Finset.range n, prodLdl n M i j * flDenseSolve R q tiny n M b j| ≤
      (vfac R * kap ((1 + R.u) ^ d) ^ 2 - 1) * ∑ j ∈ Finset.range n, absLdl n M i j * |flDenseSolve R q tiny n M b j| := by
  set y := flFwdUnit R q.fwd n M b with hy
  set z := flScaleByD R tiny M y with hz
  set x := flDenseSolve R q tiny n M b with hx
  have hx' : x = flBwdUnit R q.bwd n M z := rfl
  set κ := kap ((1 + R.u) ^ d) with hκ
  have hκ1 : 1 ≤ κ := one_le_kap (one_le_G R d) hd
  have hV := one_le_vfac R
  -- the three stages
  have r1 : ∀ i < n, |b i - ∑ k ∈ Finset.range n, unitLower M i k * y k| ≤ (κ - 1) * ∑ k ∈ Finset.range n, |unitLower M i k| * |y k| := by
    intro i hi
    obtain ⟨w, hw1, hw2⟩ := flFwdUnit_spec R q.fwd n M b i hi
    have k1 := subst_err R he (hf i hi) (b i) (fun k => M i k) (fun k => y k) w hw1
    rw [← hw2] at k1
    rw [(unit_row n M y hi).1, (unit_row n M y hi).2]
    exact (flip_datum (one_le_G R d) hd (Finset.abs_sum_le_sum_abs _ _) k1).1
  have r2 : ∀ k < n, |y k - M k k * z k| ≤ (vfac R - 1) * |M k k * z k| := by
    intro k hk
    have hne : M k k ≠ 0 := abs_pos.1 (ht.trans_lt (hp k hk))
    apply rel_flip
    have e : z k = R.rnd (y k / M k k) := by simp only [hz, flScaleByD]; rw [if_pos (hp k hk)]
    have := mul_le_mul_of_nonneg_left (rnd_rel R he (y k / M k k)) (abs_nonneg (M k k))
    rw [← e, ← abs_mul, abs_div] at this
    have e2 : M k k * (z k - y k / M k k) = M k k * z k - y k := by field_simp
    have e3 : |M k k| * (R.u * (|y k| / |M k k|)) = R.u * |y k| := by
      have : |M k k| ≠ 0 := abs_ne_zero.2 hne
      field_simp
    rwa [e2, e3] at this
  have r3 : ∀ k < n, |z k - ∑ j ∈ Finset.range n, unitLower M j k * x j| ≤ (κ - 1) * ∑ j ∈ Finset.range n, |unitLower M j k| * |x j| ∧
      |z k| ≤ κ * ∑ j ∈ Finset.range n, |unitLower M j k| * |x j| := by
    intro k hk
    obtain ⟨w, hw1, hw2⟩ := flBwdUnit_spec R q.bwd n M z k hk
    have k1 := subst_err R he (hb k hk) (z k) (fun m => M (k + 1 + m) k) (fun m => x (k + 1 + m)) (fun m => w (k + 1 + m))
      fun m hm => hw1 _ (by omega) (by omega)
    rw [← hw2] at k1
    rw [(unit_col n M x hk).1, (unit_col n M x hk).2]
    exact flip_datum (one_le_G R d) hd (Finset.abs_sum_le_sum_abs _ _) k1
  intro i hi
  let w : ℕ → K := fun k => ∑ j ∈ Finset.range n, |unitLower M j k| * |x j|
  have e1 : ∑ j ∈ Finset.range n, absLdl n M i j * |x j| = ∑ k ∈ Finset.range n, |unitLower M i k| * (|M k k| * w k) := by
    simp only [absLdl, w, Finset.sum_mul, Finset.mul_sum]
    rw [Finset.sum_comm]
    exact Finset.sum_congr rfl fun k _ => Finset.sum_congr rfl fun j _ => by ring
  have e2 : ∑ j ∈ Finset.range n, prodLdl n M i j * x j =
      ∑ k ∈ Finset.range n, unitLower M i k * (M k k * ∑ j ∈ Finset.range n, unitLower M j k * x j) := by
    simp only [prodLdl, Finset.sum_mul, Finset.mul_sum]
    rw [Finset.sum_comm]
    exact Finset.sum_congr rfl fun k _ => Finset.sum_congr rfl fun j _ => by ring
  -- the residual before the last two stages
  have s2 : ∀ k ∈ Finset.range n, |y k - M k k * ∑ j ∈ Finset.range n, unitLower M j k * x j| ≤ (vfac R * κ - 1) * (|M k k| * w k) ∧
      |y k| ≤ vfac R * κ * (|M k k| * w k) := by
    intro k hk
    rw [Finset.mem_range] at hk
    have q1 := r2 k hk
    obtain ⟨q2, q3⟩ := r3 k hk
    have q4 : |M k k * z k| ≤ κ * (|M k k| * w k) := by
      rw [abs_mul]
      have := mul_le_mul_of_nonneg_left q3 (abs_nonneg (M k k))
      linarith
    have q5 : |M k k * z k - M k k * ∑ j ∈ Finset.range n, unitLower M j k * x j| ≤ (κ - 1) * (|M k k| * w k) := by
      rw [← mul_sub, abs_mul]
      have := mul_le_mul_of_nonneg_left q2 (abs_nonneg (M k k))
      linarith
    have q6 := abs_sub_le (y k) (M k k * z k) (M k k * ∑ j ∈ Finset.range n, unitLower M j k * x j)
    have q7 : (vfac R - 1) * |M k k * z k| ≤ (vfac R - 1) * (κ * (|M k k| * w k)) := mul_le_mul_of_nonneg_left q4 (by linarith)
    have q8 : |y k| ≤ |y k - M k k * z k| + |M k k * z k| := by simpa using abs_add_le (y k - M k k * z k) (M k k * z k)
    constructor <;> linarith
  have f1 := r1 i hi
  rw [e1, e2]
  have f2 := abs_sub_le (b i) (∑ k ∈ Finset.range n, unitLower M i k * y k)
    (∑ k ∈ Finset.range n, unitLower M i k * (M k k * ∑ j ∈ Finset.range n, unitLower M j k * x j))
  have f3 : |∑ k ∈ Finset.range n, unitLower M i k * y k -
      ∑ k ∈ Finset.range n, unitLower M i k * (M k k * ∑ j ∈ Finset.range n, unitLower M j k * x j)| ≤
      (vfac R * κ - 1) * ∑ k ∈ Finset.range n, |unitLower M i k| * (|M k k| * w k) := by
    rw [← Finset.sum_sub_distrib, Finset.mul_sum]
    refine (Finset.abs_sum_le_sum_abs _ _).trans (Finset.sum_le_sum fun k hk => ?_)
    rw [← mul_sub, abs_mul]
    have := mul_le_mul_of_nonneg_left (s2 k hk).1 (abs_nonneg (unitLower M i k))
    linarith
  have f4 : ∑ k ∈ Finset.range n, |unitLower M i k| * |y k| ≤
      vfac R * κ * ∑ k ∈ Finset.range n, |unitLower M i k| * (|M k k| * w k) := by
    rw [Finset.mul_sum]
    refine Finset.sum_le_sum fun k hk => ?_
    have := mul_le_mul_of_nonneg_left (s2 k hk).2 (abs_nonneg (unitLower M i k))
    linarith
  have f5 := mul_le_mul_of_nonneg_left f4 (by linarith : 0 ≤ κ - 1)
  have e3 : (vfac R * κ ^ 2 - 1) * ∑ k ∈ Finset.range n, |unitLower M i k| * (|M k k| * w k) =
      (κ - 1) * (vfac R * κ * ∑ k ∈ Finset.range n, |unitLower M i k| * (|M k k| * w k)) +
      (vfac R * κ - 1) * ∑ k ∈ Finset.range n, |unitLower M i k| * (|M k k| * w k) := by ring
  rw [e3]
  linarith

/-! ### constants -/

/-- `(1 - u)^(-m)` when `m u ≤ 1/8` -/
theorem vpow_small (R : Rounding K) {m : ℕ} (h : 8 * (m * R.u) ≤ 1) :
    vfac R ^ m < 2 ∧ kap (vfac R ^ m) - 1 ≤ 27 / 10 * (m * R.u) := by
  have hs0 : 0 ≤ (m : K) * R.u := mul_nonneg (Nat.cast_nonneg _) R.u_nonneg
  have h0 := vfac_pos R
  have hb : 1 - (m : K) * R.u ≤ (1 - R.u) ^ m := by
    have := one_add_mul_le_pow (a := -R.u) (by linarith [R.u_lt_one]) m
    rw [← sub_eq_add_neg] at this
    linarith
  set s := (m : K) * R.u
  have hp : 0 < (1 - R.u) ^ m := pow_pos h0 m
  have e : vfac R ^ m = 1 / (1 - R.u) ^ m := by rw [vfac, one_div_pow]
  rw [e]
  set t := (1 - R.u) ^ m
  constructor
  · rw [div_lt_iff₀ hp]; linarith
  · have hk : kap (1 / t) = 1 / (2 * t - 1) := by
      rw [kap]
      have : 2 * t - 1 ≠ 0 := by
        have : 0 < 2 * t - 1 := by linarith
        exact this.ne'
      have h3 : 2 - 1 / t ≠ 0 := by
        rw [show 2 - 1 / t = (2 * t - 1) / t by field_simp]
        exact div_ne_zero this hp.ne'
      field_simp
    rw [hk, sub_le_iff_le_add, div_le_iff₀ (by linarith)]
    have : (27 / 10 * s + 1) * (1 - 2 * s) ≤ (27 / 10 * s + 1) * (2 * t - 1) :=
      mul_le_mul_of_nonneg_left (by linarith) (by linarith)
    have h5 : 1 ≤ (27 / 10 * s + 1) * (1 - 2 * s) := by nlinarith
    linarith

/-- the two contributions together -/
theorem coeff_small (R : Rounding K) {m d : ℕ} (hm : 1 ≤ m) (hd : d ≤ m) (h : 8 * (m * R.u) ≤ 1) :
    vfac R * kap ((1 + R.u) ^ d) ^ 2 - 1 + (kap (vfac R ^ m) - 1) ≤ 12 * (m * R.u) := by
  obtain ⟨h1, h2⟩ := vpow_small R h
  have hu := R.u_nonneg
  have hs : R.u ≤ m * R.u := le_mul_of_one_le_left hu (by exact_mod_cast hm)
  have hG : (1 + R.u) ^ d ≤ vfac R ^ m := (gpow_le_vpow R d).trans (vpow_mono R hd)
  have hk := kap_mono hG h1
  have hk1 := one_le_kap (one_le_G R d) (hG.trans_lt h1)
  set κ := kap ((1 + R.u) ^ d)
  set s := (m : K) * R.u
  have hV : vfac R ≤ 1 + 8 / 7 * s := by
    rw [vfac, div_le_iff₀ (vfac_pos R)]
    nlinarith
  have hκ : κ ≤ 1 + 27 / 10 * s := by linarith
  have hV1 := one_le_vfac R
  have hs0 : 0 ≤ s := hu.trans hs
  have h3 : vfac R * κ ^ 2 ≤ (1 + 8 / 7 * s) * (1 + 27 / 10 * s) ^ 2 :=
    mul_le_mul hV (pow_le_pow_left₀ (by linarith) hκ 2) (by positivity) (by positivity)
  have h4 : (1 + 8 / 7 * s) * (1 + 27 / 10 * s) ^ 2 ≤ 1 + 93 / 10 * s := by
    have h5 : s * s ≤ s / 8 := by nlinarith
    have h6 : s * (s * s) ≤ s / 64 := by nlinarith
    nlinarith
  linarith

end ProxNLP
