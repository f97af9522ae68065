import Verif.Lemmas.BkFact
import Mathlib.Algebra.BigOperators.Intervals
import Mathlib.Algebra.Group.End
import Mathlib.Algebra.BigOperators.Ring.Finset

/-! The traversal of the pivots, the accumulated permutation and the factorisation a sequence of pivot steps produces. -/

set_option linter.unusedSectionVars false
namespace ProxNLP

variable {K : Type} [Field K] [LinearOrder K] [IsStrictOrderedRing K]

open Equiv (swap)
open Relation (ReflTransGen)

/-- column `c` is the first one of a 2x2 block -/
def twoAt (piv : ℕ → ℤ) : ℕ → Bool
  | 0 => piv 0 < 0
  | c + 1 => !twoAt piv c && decide (piv (c + 1) < 0)

/-- column `k` is the first one of a block -/
def notSecond (piv : ℕ → ℤ) : ℕ → Prop
  | 0 => True
  | c + 1 => twoAt piv c = false

/-- first column after the block of which `c` is part -/
def nextCol (piv : ℕ → ℤ) (c : ℕ) : ℕ := if twoAt piv c then c + 2 else c + 1

theorem twoAt_of_notSecond {piv : ℕ → ℤ} {k : ℕ} (h : notSecond piv k) : twoAt piv k = decide (piv k < 0) := by
  cases k with
  | zero => rfl
  | succ c => simp only [notSecond] at h; simp [twoAt, h]

theorem notSecond_one {piv : ℕ → ℤ} {k : ℕ} (h : notSecond piv k) (hp : 0 ≤ piv k) : notSecond piv (k + 1) := by
  simp only [notSecond]
  rw [twoAt_of_notSecond h]
  simp [hp]

theorem notSecond_two {piv : ℕ → ℤ} {k : ℕ} (h : notSecond piv k) (hp : piv k < 0) : notSecond piv (k + 2) := by
  simp only [notSecond, twoAt]
  rw [twoAt_of_notSecond h]
  simp [hp]

/-- product of the interchanges from column `k` on -/
def travPerm (n : ℕ) (piv : ℕ → ℤ) (k : ℕ) : Equiv.Perm ℕ :=
  if k < n then
    if piv k < 0 then swap (k + 1) (-1 - piv k).toNat * travPerm n piv (k + 2) else swap k (piv k).toNat * travPerm n piv (k + 1)
  else 1
termination_by n - k

/-- valid pivots from column `k` on -/
inductive PivPath (n : ℕ) (piv : ℕ → ℤ) : ℕ → Prop
  | done : PivPath n piv n
  | one (k p : ℕ) (hk : k ≤ p) (hp : p < n) (h : piv k = p) (hr : PivPath n piv (k + 1)) : PivPath n piv k
  | two (k p : ℕ) (hk : k + 1 ≤ p) (hp : p < n) (h : piv k = -1 - (p : ℤ)) (h' : piv (k + 1) = -1 - (p : ℤ))
      (hr : PivPath n piv (k + 2)) : PivPath n piv k

theorem PivPath.of_chain {alpha : K} {n : ℕ} {piv : ℕ → ℤ} {M : ℕ → ℕ → K} {x y} (h : ReflTransGen (BkOne alpha n piv M) x y) (hy : y.1 = n) :
    PivPath n piv x.1 := by
  induction h using Relation.ReflTransGen.head_induction_on with
  | refl => rw [hy]; exact .done
  | head h1 _ ih =>
    cases h1 with
    | one k kp S T hk hkp hpiv => exact .one k kp hk hkp hpiv ih
    | two k kp S T hk hkp hpiv hpiv' => exact .two k kp hk hkp hpiv hpiv' ih

theorem PivPath.le {n : ℕ} {piv : ℕ → ℤ} {k : ℕ} (h : PivPath n piv k) : k ≤ n := by
  cases h <;> omega

theorem travPerm_done (n : ℕ) (piv : ℕ → ℤ) : travPerm n piv n = 1 := by rw [travPerm, if_neg (by omega)]

theorem travPerm_one {n : ℕ} {piv : ℕ → ℤ} {k p : ℕ} (hk : k ≤ p) (hp : p < n) (h : piv k = p) :
    travPerm n piv k = swap k p * travPerm n piv (k + 1) := by
  rw [travPerm, if_pos (by omega), if_neg (by omega), h]
  simp

theorem travPerm_two {n : ℕ} {piv : ℕ → ℤ} {k p : ℕ} (hk : k + 1 ≤ p) (hp : p < n) (h : piv k = -1 - (p : ℤ)) :
    travPerm n piv k = swap (k + 1) p * travPerm n piv (k + 2) := by
  rw [travPerm, if_pos (by omega), if_pos (by omega), h]
  simp

/-- the interchanges from `k` on leave the columns before `k` alone and stay within the matrix -/
theorem travPerm_fix {n : ℕ} {piv : ℕ → ℤ} {k : ℕ} (h : PivPath n piv k) :
    (∀ i < k, travPerm n piv k i = i) ∧ ∀ i, k ≤ i → i < n → k ≤ travPerm n piv k i ∧ travPerm n piv k i < n := by
  induction h with
  | done => rw [travPerm_done]; exact ⟨fun i _ => rfl, fun i h1 h2 => ⟨h1, h2⟩⟩
  | one k p hk hp h hr ih =>
    rw [travPerm_one hk hp h]
    simp only [Equiv.Perm.mul_apply]
    refine ⟨fun i hi => ?_, fun i hi hin => ?_⟩
    · rw [ih.1 i (by omega), Equiv.swap_apply_of_ne_of_ne (by omega) (by omega)]
    · apply swap_mem le_rfl (by omega) hk hp
      · by_cases e : i = k
        · subst e; rw [ih.1 _ (by omega)]
        · have := ih.2 i (by omega) hin; omega
      · by_cases e : i = k
        · subst e; rw [ih.1 _ (by omega)]; exact hin
        · exact (ih.2 i (by omega) hin).2
  | two k p hk hp h h' hr ih =>
    rw [travPerm_two hk hp h]
    simp only [Equiv.Perm.mul_apply]
    refine ⟨fun i hi => ?_, fun i hi hin => ?_⟩
    · rw [ih.1 i (by omega), Equiv.swap_apply_of_ne_of_ne (by omega) (by omega)]
    · apply swap_mem (by omega) (by omega) (by omega) hp
      · by_cases e : i < k + 2
        · rw [ih.1 _ e]; exact hi
        · have := ih.2 i (by omega) hin; omega
      · by_cases e : i < k + 2
        · rw [ih.1 _ e]; exact hin
        · exact (ih.2 i (by omega) hin).2

theorem travPerm_inv_mem {n : ℕ} {piv : ℕ → ℤ} (h : PivPath n piv 0) (i : ℕ) (hi : i < n) : (travPerm n piv 0)⁻¹ i < n := by
  by_contra hc
  -- a permutation of `ℕ` that maps `[0, n)` into itself maps it onto itself
  have hmap : ∀ j ∈ Finset.range n, travPerm n piv 0 j ∈ Finset.range n := fun j hj =>
    Finset.mem_range.2 ((travPerm_fix h).2 j (Nat.zero_le _) (Finset.mem_range.1 hj)).2
  have hsurj := Finset.surj_on_of_inj_on_of_card_le (s := Finset.range n) (t := Finset.range n) (fun j _ => travPerm n piv 0 j) hmap
    (fun a b _ _ e => (travPerm n piv 0).injective e) le_rfl i (Finset.mem_range.2 hi)
  obtain ⟨j, hj, e⟩ := hsurj
  rw [e] at hc
  simp at hc
  exact absurd (Finset.mem_range.1 hj) (by omega)

/-- the stored factor after conversion -/
def convMat (n : ℕ) (piv : ℕ → ℤ) (M : ℕ → ℕ → K) : ℕ → ℕ → K := fun i c =>
  if twoAt piv c = true ∧ i = c + 1 then 0 else M (travPerm n piv (nextCol piv c) i) c

/-- the unit lower triangular factor -/
def unitLow (M : ℕ → ℕ → K) : ℕ → ℕ → K := fun i c => if i = c then 1 else if c < i then M i c else 0

/-- `D` block diagonal with blocks inverse to those stored in the raw result -/
structure BkBlockDiag (n : ℕ) (piv : ℕ → ℤ) (M D : ℕ → ℕ → K) (k : ℕ) : Prop where
  sym : ∀ i j, k ≤ i → i < n → k ≤ j → j < n → D i j = D j i
  zero : ∀ i j, k ≤ i → i < j → j < n → ¬ (twoAt piv i = true ∧ j = i + 1) → D i j = 0
  single : ∀ c, k ≤ c → c < n → twoAt piv c = false → notSecond piv c → D c c ≠ 0 ∧ M c c = 1 / D c c
  double : ∀ c, k ≤ c → c + 1 < n → twoAt piv c = true →
    D c c * D (c + 1) (c + 1) - D (c + 1) c * D (c + 1) c < 0 ∧
    M c c = D (c + 1) (c + 1) / (D c c * D (c + 1) (c + 1) - D (c + 1) c * D (c + 1) c) ∧
    M (c + 1) c = -D (c + 1) c / (D c c * D (c + 1) (c + 1) - D (c + 1) c * D (c + 1) c) ∧
    M (c + 1) (c + 1) = D c c / (D c c * D (c + 1) (c + 1) - D (c + 1) c * D (c + 1) c)

/-- peels the first row and column off a double sum -/
theorem sum_peel (k n : ℕ) (hk : k < n) (f : ℕ → ℕ → K) :
    (∑ c ∈ Finset.Ico k n, ∑ c' ∈ Finset.Ico k n, f c c') =
      f k k + (∑ c' ∈ Finset.Ico (k + 1) n, f k c') + (∑ c ∈ Finset.Ico (k + 1) n, f c k) +
        ∑ c ∈ Finset.Ico (k + 1) n, ∑ c' ∈ Finset.Ico (k + 1) n, f c c' := by
  rw [Finset.sum_eq_sum_Ico_succ_bot hk, Finset.sum_eq_sum_Ico_succ_bot hk (f k),
    Finset.sum_congr rfl fun c _ => Finset.sum_eq_sum_Ico_succ_bot hk (f c), Finset.sum_add_distrib]
  ring

theorem bk_factorises {alpha : K} {n : ℕ} {piv : ℕ → ℤ} {M : ℕ → ℕ → K} {x y} (h : ReflTransGen (BkOne alpha n piv M) x y) (hy : y.1 = n)
    (hs : SymOn x.1 n x.2) (hx : notSecond piv x.1) :
    ∃ D : ℕ → ℕ → K, BkBlockDiag n piv M D x.1 ∧
      ∀ i j, x.1 ≤ i → i < n → x.1 ≤ j → j < n → x.2 (travPerm n piv x.1 i) (travPerm n piv x.1 j) =
        ∑ c ∈ Finset.Ico x.1 n, ∑ c' ∈ Finset.Ico x.1 n,
          unitLow (convMat n piv M) i c * D c c' * unitLow (convMat n piv M) j c' := by
  induction h using Relation.ReflTransGen.head_induction_on with
  | refl =>
    refine ⟨fun _ _ => 0, ⟨fun i j _ _ _ _ => rfl, fun i j _ _ _ _ => rfl, fun c h1 h2 => by omega, fun c h1 h2 => by omega⟩,
      fun i j h1 h2 => by omega⟩
  | head h1 htail ih =>
    have hpath := PivPath.of_chain htail hy
    have hs' := h1.sym hs
    cases h1 with
    | one k kp S T hk hkp hpiv hne hd hl hT =>
      simp only at hs hx hs' hpath ih ⊢
      have hx' : notSecond piv (k + 1) := notSecond_one hx (by omega)
      have htw : twoAt piv k = false := by rw [twoAt_of_notSecond hx]; simp [hpiv]
      obtain ⟨D, hD, hf⟩ := ih hs' hx'
      obtain ⟨hfix, hmem⟩ := travPerm_fix hpath
      rw [travPerm_one hk hkp hpiv]
      simp only [Equiv.Perm.mul_apply]
      generalize hπ : travPerm n piv (k + 1) = π at hf hfix hmem ⊢
      generalize hLd : unitLow (convMat n piv M) = L at hf ⊢
      have hLk : ∀ i, k ≤ i → i < n → L i k = S (swap k kp (π i)) kp / S kp kp := by
        intro i hi hin
        rw [← hLd]
        by_cases e : i = k
        · subst e
          simp only [unitLow, if_true]
          rw [hfix _ (by omega), Equiv.swap_apply_left, div_self hne]
        · obtain ⟨m1, m2⟩ := hmem i (by omega) hin
          simp only [unitLow, e, if_false, show k < i by omega, if_true, convMat, htw, Bool.false_eq_true, false_and, nextCol, hπ]
          exact hl _ (by omega) m2
      have hL0 : ∀ c, k < c → L k c = 0 := by
        intro c hc
        rw [← hLd]
        simp only [unitLow]
        rw [if_neg (by omega), if_neg (by omega)]
      refine ⟨fun i j => if i = k ∧ j = k then S kp kp else if i = k ∨ j = k then 0 else D i j, ⟨?_, ?_, ?_, ?_⟩, ?_⟩
      · intro i j hi hin hj hjn
        by_cases e1 : i = k <;> by_cases e2 : j = k <;> simp [e1, e2]
        exact hD.sym i j (by omega) hin (by omega) hjn
      · intro i j hi hij hjn hne2
        simp only [show j ≠ k by omega, and_false, if_false, or_false]
        by_cases e1 : i = k
        · simp [e1]
        · simp only [e1, if_false]
          exact hD.zero i j (by omega) hij hjn hne2
      · intro c hc hcn h1 h2
        by_cases e1 : c = k
        · subst e1
          simp only [and_self, if_true]
          exact ⟨hne, hd⟩
        · simp only [e1, and_self, or_self, if_false]
          exact hD.single c (by omega) hcn h1 h2
      · intro c hc hcn h1
        have e1 : c ≠ k := by rintro rfl; rw [htw] at h1; cases h1
        simp only [e1, show c + 1 ≠ k by omega, and_self, or_self, if_false]
        exact hD.double c (by omega) hcn h1
      · intro i j hi hin hj hjn
        rw [sum_peel k n (by omega)]
        have z1 : ∑ c' ∈ Finset.Ico (k + 1) n, L i k * (if k = k ∧ c' = k then S kp kp else if k = k ∨ c' = k then 0 else D k c') * L j c' = 0 := by
          refine Finset.sum_eq_zero fun c' hc' => ?_
          have := (Finset.mem_Ico.1 hc').1
          rw [if_neg (by omega), if_pos (by omega)]; ring
        have z2 : ∑ c ∈ Finset.Ico (k + 1) n, L i c * (if c = k ∧ k = k then S kp kp else if c = k ∨ k = k then 0 else D c k) * L j k = 0 := by
          refine Finset.sum_eq_zero fun c' hc' => ?_
          have := (Finset.mem_Ico.1 hc').1
          rw [if_neg (by omega), if_pos (by omega)]; ring
        have z3 : ∑ c ∈ Finset.Ico (k + 1) n, ∑ c' ∈ Finset.Ico (k + 1) n,
            L i c * (if c = k ∧ c' = k then S kp kp else if c = k ∨ c' = k then 0 else D c c') * L j c' =
            ∑ c ∈ Finset.Ico (k + 1) n, ∑ c' ∈ Finset.Ico (k + 1) n, L i c * D c c' * L j c' := by
          refine Finset.sum_congr rfl fun c hc => Finset.sum_congr rfl fun c' hc' => ?_
          have := (Finset.mem_Ico.1 hc').1
          have := (Finset.mem_Ico.1 hc).1
          rw [if_neg (by omega), if_neg (by omega)]
        rw [z1, z2, z3]
        simp only [and_self, if_true]
        have hm : ∀ j, k ≤ j → j < n → k ≤ swap k kp (π j) ∧ swap k kp (π j) < n := by
          intro j hj hjn
          refine swap_mem le_rfl (by omega) hk hkp ?_ ?_ <;> by_cases e : j = k
          · rw [e, hfix k (by omega)]
          · have := hmem j (by omega) hjn; omega
          · rw [e, hfix k (by omega)]; omega
          · exact (hmem j (by omega) hjn).2
        have hz : ∀ i j, i = k ∨ j = k →
            ∑ c ∈ Finset.Ico (k + 1) n, ∑ c' ∈ Finset.Ico (k + 1) n, L i c * D c c' * L j c' = 0 := by
          intro i j hij
          refine Finset.sum_eq_zero fun c hc => Finset.sum_eq_zero fun c' hc' => ?_
          have := (Finset.mem_Ico.1 hc').1
          have := (Finset.mem_Ico.1 hc).1
          rcases hij with rfl | rfl
          · rw [hL0 c (by omega)]; ring
          · rw [hL0 c' (by omega)]; ring
        have key : S (swap k kp (π i)) (swap k kp (π j)) = L i k * S (swap k kp (π j)) kp +
            ∑ c ∈ Finset.Ico (k + 1) n, ∑ c' ∈ Finset.Ico (k + 1) n, L i c * D c c' * L j c' := by
          by_cases e1 : i = k
          · subst e1
            rw [hz _ _ (.inl rfl), hLk _ le_rfl hin, hfix i (by omega), Equiv.swap_apply_left, div_self hne,
              hs kp _ hk hkp (hm j hj hjn).1 (hm j hj hjn).2]
            ring
          · by_cases e2 : j = k
            · subst e2
              rw [hz _ _ (.inr rfl), hLk _ hi hin, hfix j (by omega), Equiv.swap_apply_left, div_mul_cancel₀ _ hne, add_zero]
            · obtain ⟨m1, m2⟩ := hmem i (by omega) hin
              obtain ⟨m3, m4⟩ := hmem j (by omega) hjn
              rw [← hf i j (by omega) hin (by omega) hjn, hT _ _ (by omega) m2 (by omega) m4, hl _ (by omega) m2, hLk i hi hin]
              ring
        rw [key, show S (swap k kp (π j)) kp = S kp kp * L j k by rw [hLk j hj hjn]; field_simp]
        ring
    | two k kp S T hk hkp hpiv hpiv' hdet hd0 hd1 hd2 hl0 hl1 hT =>
      simp only at hs hx hs' hpath ih ⊢
      have hx' : notSecond piv (k + 2) := notSecond_two hx (by omega)
      have htw : twoAt piv k = true := by rw [twoAt_of_notSecond hx, hpiv]; simp; omega
      have htw1 : twoAt piv (k + 1) = false := hx'
      obtain ⟨D, hD, hf⟩ := ih hs' hx'
      obtain ⟨hfix, hmem⟩ := travPerm_fix hpath
      rw [travPerm_two hk hkp hpiv]
      simp only [Equiv.Perm.mul_apply]
      generalize hπ : travPerm n piv (k + 2) = π at hf hfix hmem ⊢
      generalize hLd : unitLow (convMat n piv M) = L at hf ⊢
      have hq : S k kp = S kp k := hs k kp le_rfl (by omega) (by omega) hkp
      have hσk : swap (k + 1) kp k = k := Equiv.swap_apply_of_ne_of_ne (by omega) (by omega)
      generalize hdd : S k k * S kp kp - S kp k * S kp k = det at hdet hd0 hd1 hd2 hl0 hl1
      have hdn : det ≠ 0 := hdet.ne
      have hLk : ∀ i, k ≤ i → i < n → L i k =
          (S kp kp * S (swap (k + 1) kp (π i)) k - S kp k * S (swap (k + 1) kp (π i)) kp) / det := by
        intro i hi hin
        rw [← hLd]
        by_cases e : i = k
        · subst e
          simp only [unitLow, if_true]
          rw [hfix _ (by omega), hσk, hq, eq_div_iff hdn, ← hdd]; ring
        · by_cases e1 : i = k + 1
          · subst e1
            simp only [unitLow, e, if_false, show k < k + 1 by omega, if_true, convMat, htw, and_self]
            rw [hfix _ (by omega), Equiv.swap_apply_left, eq_div_iff hdn]; ring
          · obtain ⟨m1, m2⟩ := hmem i (by omega) hin
            simp only [unitLow, e, if_false, show k < i by omega, if_true, convMat, htw, e1, and_false, nextCol, hπ]
            exact hl0 _ (by omega) m2
      have hLk1 : ∀ i, k ≤ i → i < n → L i (k + 1) =
          (S k k * S (swap (k + 1) kp (π i)) kp - S kp k * S (swap (k + 1) kp (π i)) k) / det := by
        intro i hi hin
        rw [← hLd]
        by_cases e : i = k
        · subst e
          simp only [unitLow, show i ≠ i + 1 by omega, if_false, show ¬ (i + 1 < i) by omega]
          rw [hfix _ (by omega), hσk, hq, eq_div_iff hdn]; ring
        · by_cases e1 : i = k + 1
          · subst e1
            simp only [unitLow, if_true]
            rw [hfix _ (by omega), Equiv.swap_apply_left, eq_div_iff hdn, ← hdd]; ring
          · obtain ⟨m1, m2⟩ := hmem i (by omega) hin
            simp only [unitLow, e1, if_false, show k + 1 < i by omega, if_true, convMat, htw1, Bool.false_eq_true, false_and, nextCol, hπ]
            exact hl1 _ (by omega) m2
      have hL0 : ∀ r c, k ≤ r → r ≤ k + 1 → k + 1 < c → L r c = 0 := by
        intro r c hr hr1 hc
        rw [← hLd]
        simp only [unitLow]
        rw [if_neg (by omega), if_neg (by omega)]
      obtain ⟨E, hE⟩ : ∃ E : ℕ → ℕ → K, E = fun i j =>
        if k + 1 < i ∧ k + 1 < j then D i j else if i = k ∧ j = k then S k k else if i = k + 1 ∧ j = k + 1 then S kp kp
          else if i ≤ k + 1 ∧ j ≤ k + 1 then S kp k else 0 := ⟨_, rfl⟩
      have hE1 : ∀ i j, k + 1 < i → k + 1 < j → E i j = D i j := by
        intro i j h1 h2; rw [hE]; exact if_pos ⟨h1, h2⟩
      have hE2 : E k k = S k k := by
        rw [hE]; simp
      have hE3 : E (k + 1) (k + 1) = S kp kp := by
        rw [hE]; simp
      have hE4 : E (k + 1) k = S kp k := by
        rw [hE]; simp only; rw [if_neg (by omega), if_neg (by omega), if_neg (by omega), if_pos (by omega)]
      have hE5 : E k (k + 1) = S kp k := by
        rw [hE]; simp only; rw [if_neg (by omega), if_neg (by omega), if_neg (by omega), if_pos (by omega)]
      have hE6 : ∀ i j, k ≤ i → k ≤ j → (i ≤ k + 1 ∧ k + 1 < j ∨ j ≤ k + 1 ∧ k + 1 < i) → E i j = 0 := by
        intro i j h1 h2 h3; rw [hE]; simp only
        rw [if_neg (by omega), if_neg (by omega), if_neg (by omega), if_neg (by omega)]
      refine ⟨E, ⟨?_, ?_, ?_, ?_⟩, ?_⟩
      · intro i j hi hin hj hjn
        by_cases e1 : k + 1 < i <;> by_cases e2 : k + 1 < j
        · rw [hE1 i j e1 e2, hE1 j i e2 e1]
          exact hD.sym i j (by omega) hin (by omega) hjn
        · rw [hE6 i j hi hj (by omega), hE6 j i hj hi (by omega)]
        · rw [hE6 i j hi hj (by omega), hE6 j i hj hi (by omega)]
        · obtain rfl | rfl : i = k ∨ i = k + 1 := by omega
          · obtain rfl | rfl : j = i ∨ j = i + 1 := by omega
            · rfl
            · rw [hE4, hE5]
          · obtain rfl | rfl : j = k ∨ j = k + 1 := by omega
            · rw [hE4, hE5]
            · rfl
      · intro i j hi hij hjn hne2
        by_cases e1 : k + 1 < i
        · rw [hE1 i j e1 (by omega)]
          exact hD.zero i j (by omega) hij hjn hne2
        · by_cases e2 : k + 1 < j
          · exact hE6 i j hi (by omega) (by omega)
          · obtain rfl : i = k := by omega
            exact (hne2 ⟨htw, by omega⟩).elim
      · intro c hc hcn h1 h2
        by_cases e1 : k + 1 < c
        · rw [hE1 c c e1 e1]
          exact hD.single c (by omega) hcn h1 h2
        · obtain rfl | rfl : c = k ∨ c = k + 1 := by omega
          · rw [htw] at h1; cases h1
          · simp only [notSecond] at h2; rw [htw] at h2; cases h2
      · intro c hc hcn h1
        by_cases e1 : k + 1 < c
        · rw [hE1 c c e1 e1, hE1 (c + 1) (c + 1) (by omega) (by omega), hE1 (c + 1) c (by omega) e1]
          exact hD.double c (by omega) hcn h1
        · obtain rfl | rfl : c = k ∨ c = k + 1 := by omega
          · rw [hE2, hE3, hE4, hdd]
            exact ⟨hdet, hd0, hd1, hd2⟩
          · rw [htw1] at h1; cases h1
      · intro i j hi hin hj hjn
        rw [sum_peel k n (by omega), sum_peel (k + 1) n (by omega), Finset.sum_eq_sum_Ico_succ_bot (show k + 1 < n by omega),
          Finset.sum_eq_sum_Ico_succ_bot (show k + 1 < n by omega)]
        have z : ∀ r, k ≤ r → r ≤ k + 1 → (∑ c' ∈ Finset.Ico (k + 1 + 1) n, L i r * E r c' * L j c' = 0) ∧
            ∑ c ∈ Finset.Ico (k + 1 + 1) n, L i c * E c r * L j r = 0 := by
          intro r hr hr1
          constructor <;> refine Finset.sum_eq_zero fun c' hc' => ?_ <;> have := (Finset.mem_Ico.1 hc').1
          · rw [hE6 r c' hr (by omega) (by omega)]; ring
          · rw [hE6 c' r (by omega) hr (by omega)]; ring
        have z3 : ∑ c ∈ Finset.Ico (k + 1 + 1) n, ∑ c' ∈ Finset.Ico (k + 1 + 1) n, L i c * E c c' * L j c' =
            ∑ c ∈ Finset.Ico (k + 2) n, ∑ c' ∈ Finset.Ico (k + 2) n, L i c * D c c' * L j c' := by
          refine Finset.sum_congr rfl fun c hc => Finset.sum_congr rfl fun c' hc' => ?_
          have := (Finset.mem_Ico.1 hc').1
          have := (Finset.mem_Ico.1 hc).1
          rw [hE1 c c' (by omega) (by omega)]
        rw [(z k le_rfl (by omega)).1, (z k le_rfl (by omega)).2, (z (k + 1) (by omega) le_rfl).1, (z (k + 1) (by omega) le_rfl).2,
          z3, hE2, hE3, hE4, hE5]
        have hm : ∀ j, k ≤ j → j < n → k ≤ swap (k + 1) kp (π j) ∧ swap (k + 1) kp (π j) < n := by
          intro j hj hjn
          refine swap_mem (by omega) (by omega) (by omega) hkp ?_ ?_ <;> by_cases e : j < k + 2
          · rw [hfix j e]; exact hj
          · have := hmem j (by omega) hjn; omega
          · rw [hfix j e]; exact hjn
          · exact (hmem j (by omega) hjn).2
        have hz : ∀ i j, k ≤ i → k ≤ j → i ≤ k + 1 ∨ j ≤ k + 1 →
            ∑ c ∈ Finset.Ico (k + 2) n, ∑ c' ∈ Finset.Ico (k + 2) n, L i c * D c c' * L j c' = 0 := by
          intro i j hi hj hij
          refine Finset.sum_eq_zero fun c hc => Finset.sum_eq_zero fun c' hc' => ?_
          have := (Finset.mem_Ico.1 hc').1
          have := (Finset.mem_Ico.1 hc).1
          rcases hij with h | h
          · rw [hL0 i c hi h (by omega)]; ring
          · rw [hL0 j c' hj h (by omega)]; ring
        have key : S (swap (k + 1) kp (π i)) (swap (k + 1) kp (π j)) =
            L i k * S (swap (k + 1) kp (π j)) k + L i (k + 1) * S (swap (k + 1) kp (π j)) kp +
            ∑ c ∈ Finset.Ico (k + 2) n, ∑ c' ∈ Finset.Ico (k + 2) n, L i c * D c c' * L j c' := by
          by_cases e1 : i ≤ k + 1
          · rw [hz i j hi hj (.inl e1), hLk i hi hin, hLk1 i hi hin, hfix i (by omega)]
            obtain rfl | rfl : i = k ∨ i = k + 1 := by omega
            · rw [hσk, hs i _ le_rfl (by omega) (hm j hj hjn).1 (hm j hj hjn).2, hq]
              field_simp
              rw [← hdd]; ring
            · rw [Equiv.swap_apply_left, hs kp _ (by omega) hkp (hm j hj hjn).1 (hm j hj hjn).2]
              field_simp
              rw [← hdd]; ring
          · by_cases e2 : j ≤ k + 1
            · rw [hz i j hi hj (.inr e2), hLk i hi hin, hLk1 i hi hin, hfix j (by omega)]
              obtain rfl | rfl : j = k ∨ j = k + 1 := by omega
              · rw [hσk, hq]
                field_simp
                rw [← hdd]; ring
              · rw [Equiv.swap_apply_left]
                field_simp
                rw [← hdd]; ring
            · obtain ⟨m1, m2⟩ := hmem i (by omega) hin
              obtain ⟨m3, m4⟩ := hmem j (by omega) hjn
              rw [← hf i j (by omega) hin (by omega) hjn, hT _ _ (by omega) m2 (by omega) m4, hl0 _ (by omega) m2,
                hl1 _ (by omega) m2, hLk i hi hin, hLk1 i hi hin]
              ring
        have u1 : S (swap (k + 1) kp (π j)) k = S k k * L j k + S kp k * L j (k + 1) := by
          rw [hLk j hj hjn, hLk1 j hj hjn]; field_simp; rw [← hdd]; ring
        have u2 : S (swap (k + 1) kp (π j)) kp = S kp k * L j k + S kp kp * L j (k + 1) := by
          rw [hLk j hj hjn, hLk1 j hj hjn]; field_simp; rw [← hdd]; ring
        rw [key, u1, u2]
        ring

end ProxNLP
