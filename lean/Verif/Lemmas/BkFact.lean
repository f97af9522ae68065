import Verif.Lemmas.BunchKaufman
import Mathlib.Logic.Relation
import Mathlib.Tactic.LinearCombination

/-! A pivot step of the Bunch-Kaufman factorisation on the symmetric trailing matrix, and the loops as sequences of such
steps. -/

set_option linter.unusedSectionVars false
namespace ProxNLP

variable {K : Type} [Field K] [LinearOrder K] [IsStrictOrderedRing K]

open Equiv (swap)
open Relation (ReflTransGen)

/-- One pivot: `(k, S)` is the first column and the symmetric trailing matrix on `[k, n)` before, `(k', T)` after; `M` and
`piv` hold the columns `k, …, k' - 1` of the raw result and their pivots. -/
inductive BkOne (alpha : K) (n : ℕ) (piv : ℕ → ℤ) (M : ℕ → ℕ → K) : ℕ × (ℕ → ℕ → K) → ℕ × (ℕ → ℕ → K) → Prop
  | one (k kp : ℕ) (S T : ℕ → ℕ → K) (hk : k ≤ kp) (hkp : kp < n) (hpiv : piv k = kp) (hne : S kp kp ≠ 0)
      (hd : M k k = 1 / S kp kp) (hl : ∀ i, k < i → i < n → M i k = S (swap k kp i) kp / S kp kp)
      (hT : ∀ i j, k < i → i < n → k < j → j < n →
        T i j = S (swap k kp i) (swap k kp j) - M i k * S (swap k kp j) kp)
      (hg : BkGood1 alpha n k kp S) : BkOne alpha n piv M (k, S) (k + 1, T)
  | two (k kp : ℕ) (S T : ℕ → ℕ → K) (hk : k + 1 ≤ kp) (hkp : kp < n) (hpiv : piv k = -1 - (kp : ℤ))
      (hpiv' : piv (k + 1) = -1 - (kp : ℤ)) (hdet : S k k * S kp kp - S kp k * S kp k < 0)
      (hd0 : M k k = S kp kp / (S k k * S kp kp - S kp k * S kp k))
      (hd1 : M (k + 1) k = -S kp k / (S k k * S kp kp - S kp k * S kp k))
      (hd2 : M (k + 1) (k + 1) = S k k / (S k k * S kp kp - S kp k * S kp k))
      (hl0 : ∀ i, k + 1 < i → i < n → M i k =
        (S kp kp * S (swap (k + 1) kp i) k - S kp k * S (swap (k + 1) kp i) kp) / (S k k * S kp kp - S kp k * S kp k))
      (hl1 : ∀ i, k + 1 < i → i < n → M i (k + 1) =
        (S k k * S (swap (k + 1) kp i) kp - S kp k * S (swap (k + 1) kp i) k) / (S k k * S kp kp - S kp k * S kp k))
      (hT : ∀ i j, k + 1 < i → i < n → k + 1 < j → j < n → T i j = S (swap (k + 1) kp i) (swap (k + 1) kp j) -
        (M i k * S (swap (k + 1) kp j) k + M i (k + 1) * S (swap (k + 1) kp j) kp))
      (hg : BkGood2 alpha n k kp S) : BkOne alpha n piv M (k, S) (k + 2, T)

theorem BkOne.lt {alpha : K} {n : ℕ} {piv : ℕ → ℤ} {M : ℕ → ℕ → K} {x y} (h : BkOne alpha n piv M x y) : x.1 < y.1 ∧ y.1 ≤ n := by
  cases h <;> simp <;> omega

/-- only the columns of the step matter -/
theorem BkOne.congr {alpha : K} {n : ℕ} {piv piv' : ℕ → ℤ} {M M' : ℕ → ℕ → K} {x y} (h : BkOne alpha n piv M x y)
    (hp : ∀ c, x.1 ≤ c → c < y.1 → piv' c = piv c) (hM : ∀ c, x.1 ≤ c → c < y.1 → ∀ i, c ≤ i → i < n → M' i c = M i c) :
    BkOne alpha n piv' M' x y := by
  cases h with
  | one k kp S T hk hkp hpiv hne hd hl hT hg =>
    simp only at hp hM
    have hc : ∀ i, k ≤ i → i < n → M' i k = M i k := hM k le_rfl (by omega)
    refine .one k kp S T hk hkp ?_ hne ?_ ?_ ?_ hg
    · rw [hp k le_rfl (by omega), hpiv]
    · rw [hc k le_rfl (by omega), hd]
    · intro i h1 h2; rw [hc i h1.le h2, hl i h1 h2]
    · intro i j h1 h2 h3 h4; rw [hc i h1.le h2, hT i j h1 h2 h3 h4]
  | two k kp S T hk hkp hpiv hpiv' hdet hd0 hd1 hd2 hl0 hl1 hT hg =>
    simp only at hp hM
    have hc : ∀ i, k ≤ i → i < n → M' i k = M i k := hM k le_rfl (by omega)
    have hc1 : ∀ i, k + 1 ≤ i → i < n → M' i (k + 1) = M i (k + 1) := hM (k + 1) (by omega) (by omega)
    refine .two k kp S T hk hkp ?_ ?_ hdet ?_ ?_ ?_ ?_ ?_ ?_ hg
    · rw [hp k le_rfl (by omega), hpiv]
    · rw [hp (k + 1) (by omega) (by omega), hpiv']
    · rw [hc k le_rfl (by omega), hd0]
    · rw [hc (k + 1) (by omega) (by omega), hd1]
    · rw [hc1 (k + 1) (by omega) (by omega), hd2]
    · intro i h1 h2; rw [hc i (by omega) h2, hl0 i h1 h2]
    · intro i h1 h2; rw [hc1 i (by omega) h2, hl1 i h1 h2]
    · intro i j h1 h2 h3 h4; rw [hc i (by omega) h2, hc1 i (by omega) h2, hT i j h1 h2 h3 h4]

/-- symmetric trailing matrix -/
def SymOn (k n : ℕ) (S : ℕ → ℕ → K) : Prop := ∀ i j, k ≤ i → i < n → k ≤ j → j < n → S i j = S j i

theorem swap_mem {k n p q : ℕ} (hp : k ≤ p) (hpn : p < n) (hq : k ≤ q) (hqn : q < n) {i : ℕ} (hi : k ≤ i) (hin : i < n) :
    k ≤ swap p q i ∧ swap p q i < n := by
  rw [Equiv.swap_apply_def]
  split_ifs <;> omega

theorem BkOne.sym {alpha : K} {n : ℕ} {piv : ℕ → ℤ} {M : ℕ → ℕ → K} {x y} (h : BkOne alpha n piv M x y) (hs : SymOn x.1 n x.2) : SymOn y.1 n y.2 := by
  cases h with
  | one k kp S T hk hkp hpiv hne hd hl hT =>
    intro i j hi hin hj hjn
    simp only at hi hj hs ⊢
    obtain ⟨a1, a2⟩ := swap_mem (n := n) le_rfl (by omega) hk hkp (show k ≤ i by omega) hin
    obtain ⟨b1, b2⟩ := swap_mem (n := n) le_rfl (by omega) hk hkp (show k ≤ j by omega) hjn
    rw [hT i j (by omega) hin (by omega) hjn, hT j i (by omega) hjn (by omega) hin, hl i (by omega) hin, hl j (by omega) hjn,
      hs _ _ a1 a2 b1 b2]
    ring
  | two k kp S T hk hkp hpiv hpiv' hdet hd0 hd1 hd2 hl0 hl1 hT =>
    intro i j hi hin hj hjn
    simp only at hi hj hs ⊢
    obtain ⟨a1, a2⟩ := swap_mem (n := n) (show k ≤ k + 1 by omega) (by omega) (by omega) hkp (show k ≤ i by omega) hin
    obtain ⟨b1, b2⟩ := swap_mem (n := n) (show k ≤ k + 1 by omega) (by omega) (by omega) hkp (show k ≤ j by omega) hjn
    rw [hT i j (by omega) hin (by omega) hjn, hT j i (by omega) hjn (by omega) hin, hl0 i (by omega) hin, hl0 j (by omega) hjn,
      hl1 i (by omega) hin, hl1 j (by omega) hjn, hs _ _ a1 a2 b1 b2]
    ring

theorem bkElim1_left (n k : ℕ) (a : ℕ → ℕ → K) (i c : ℕ) (hc : c < k) : bkElim1 n k a i c = a i c := by
  simp only [bkElim1]
  rw [if_neg (by omega), if_neg (by omega), if_neg (by omega)]

theorem bkElim2_left (n k : ℕ) (a : ℕ → ℕ → K) (i c : ℕ) (hc : c < k) : bkElim2 n k a i c = a i c := by
  rw [bkElim2_eq]
  simp only
  rw [if_neg (by omega), if_neg (by omega), if_neg (by omega), if_neg (by omega), if_neg (by omega), if_neg (by omega)]

theorem bkStep_left (n k : ℕ) (two : Bool) (kp : ℕ) (s : BkSt K) (hk : (if two then k + 1 else k) ≤ kp) (i c : ℕ) (hc : c < k) :
    (bkStep n k two kp s).a i c = s.a i c ∧ (bkStep n k two kp s).piv c = s.piv c := by
  unfold bkStep bkSetPiv
  cases two
  · simp only [Bool.false_eq_true, if_false] at hk ⊢
    rw [bkElim1_left n k _ i c hc, bkSwap_left n k false kp s.a (by simpa using hk) i c hc, if_neg (by omega)]
    exact ⟨rfl, rfl⟩
  · simp only [if_true] at hk ⊢
    rw [bkElim2_left n k _ i c hc, bkSwap_left n k true kp s.a (by simpa using hk) i c hc, if_neg (by omega)]
    exact ⟨rfl, rfl⟩

/-- one pass of the unblocked loop is a pivot step -/
theorem bkStep_one {alpha : K} (n k : ℕ) (two : Bool) (kp : ℕ) (s : BkSt K) (hk : (if two then k + 1 else k) ≤ kp) (hkp : kp < n)
    (h1 : two = false → symRow s.a kp kp ≠ 0)
    (h2 : two = true → symRow s.a kp k ≠ 0 ∧
      symRow s.a k k * symRow s.a kp kp - symRow s.a kp k * symRow s.a kp k < 0)
    (h3 : two = false → BkGood1 alpha n k kp (symRow s.a)) (h4 : two = true → BkGood2 alpha n k kp (symRow s.a)) :
    BkOne alpha n (bkStep n k two kp s).piv (bkStep n k two kp s).a (k, symRow s.a)
      (if two then k + 2 else k + 1, symRow (bkStep n k two kp s).a) := by
  have hsw := bkSwap_sym' n k two kp s.a hk hkp
  cases two
  · simp only [Bool.false_eq_true, if_false] at hk hsw ⊢
    have hne := h1 rfl
    have hkk : bkSwap n k false kp s.a k k = symRow s.a kp kp := by
      rw [hsw k k le_rfl le_rfl (by omega), Equiv.swap_apply_left]
    have hik : ∀ i, k < i → i < n → bkSwap n k false kp s.a i k = symRow s.a (swap k kp i) kp := by
      intro i hi hin
      rw [hsw i k le_rfl hi.le hin, Equiv.swap_apply_left]
    have hM : ∀ i, k < i → i < n → (bkStep n k false kp s).a i k = symRow s.a (swap k kp i) kp / symRow s.a kp kp := by
      intro i hi hin
      simp only [bkStep, Bool.false_eq_true, if_false, bkElim1]
      rw [if_neg (by omega), if_neg (by omega), if_pos ⟨trivial, hi, hin⟩, hik i hi hin, hkk]
      ring
    refine .one k kp _ _ hk hkp ?_ hne ?_ hM ?_ (h3 rfl)
    · simp [bkStep, bkSetPiv]
    · simp only [bkStep, Bool.false_eq_true, if_false, bkElim1]
      rw [if_pos ⟨trivial, trivial⟩, hkk]
    · have key : ∀ i j, k < j → j ≤ i → i < n → (bkStep n k false kp s).a i j =
          symRow s.a (swap k kp i) (swap k kp j) - symRow s.a (swap k kp i) kp / symRow s.a kp kp * symRow s.a (swap k kp j) kp := by
        intro i j hj hji hin
        simp only [bkStep, Bool.false_eq_true, if_false, bkElim1]
        rw [if_neg (by omega), if_pos ⟨hj, hji, hin⟩, hkk, hik i (by omega) hin, hik j hj (by omega), hsw i j (by omega) hji hin]
        ring
      intro i j hi hin hj hjn
      rw [hM i hi hin]
      by_cases hji : j ≤ i
      · rw [show symRow (bkStep n k false kp s).a i j = (bkStep n k false kp s).a i j from if_pos hji, key i j hj hji hin]
      · rw [show symRow (bkStep n k false kp s).a i j = (bkStep n k false kp s).a j i from if_neg hji, key j i hi (by omega) hjn,
          symRow_symm s.a (swap k kp j) (swap k kp i)]
        ring
  · simp only [if_true] at hk hsw ⊢
    obtain ⟨hne, hdet⟩ := h2 rfl
    have hσk : swap (k + 1) kp k = k := Equiv.swap_apply_of_ne_of_ne (by omega) (by omega)
    have hkk : bkSwap n k true kp s.a k k = symRow s.a k k := by
      rw [hsw k k le_rfl le_rfl (by omega), hσk]
    have hkk1 : bkSwap n k true kp s.a (k + 1) k = symRow s.a kp k := by
      rw [hsw (k + 1) k le_rfl (by omega) (by omega), hσk, Equiv.swap_apply_left]
    have hkk2 : bkSwap n k true kp s.a (k + 1) (k + 1) = symRow s.a kp kp := by
      rw [hsw (k + 1) (k + 1) (by omega) le_rfl (by omega), Equiv.swap_apply_left]
    have hik : ∀ i, k + 1 < i → i < n → bkSwap n k true kp s.a i k = symRow s.a (swap (k + 1) kp i) k := by
      intro i hi hin
      rw [hsw i k le_rfl (by omega) hin, hσk]
    have hik1 : ∀ i, k + 1 < i → i < n → bkSwap n k true kp s.a i (k + 1) = symRow s.a (swap (k + 1) kp i) kp := by
      intro i hi hin
      rw [hsw i (k + 1) (by omega) (by omega) hin, Equiv.swap_apply_left]
    have hst : (bkStep n k true kp s).a = bkElim2 n k (bkSwap n k true kp s.a) := rfl
    obtain ⟨e1, e2, e3, e4, e5⟩ := bkD_inv (symRow s.a k k) (symRow s.a kp k) (symRow s.a kp kp) hne hdet.ne
    have hM0 : ∀ i, k + 1 < i → i < n → (bkStep n k true kp s).a i k =
        (symRow s.a kp kp * symRow s.a (swap (k + 1) kp i) k - symRow s.a kp k * symRow s.a (swap (k + 1) kp i) kp) /
          (symRow s.a k k * symRow s.a kp kp - symRow s.a kp k * symRow s.a kp k) := by
      intro i hi hin
      rw [hst, bkElim2_eq]
      simp only
      rw [if_neg (by omega), if_neg (by omega), if_neg (by omega), if_neg (by omega), if_pos ⟨by omega, hin, trivial⟩, hkk, hkk1, hkk2,
        hik i hi hin, hik1 i hi hin, e4]
    have hM1 : ∀ i, k + 1 < i → i < n → (bkStep n k true kp s).a i (k + 1) =
        (symRow s.a k k * symRow s.a (swap (k + 1) kp i) kp - symRow s.a kp k * symRow s.a (swap (k + 1) kp i) k) /
          (symRow s.a k k * symRow s.a kp kp - symRow s.a kp k * symRow s.a kp k) := by
      intro i hi hin
      rw [hst, bkElim2_eq]
      simp only
      rw [if_neg (by omega), if_neg (by omega), if_neg (by omega), if_neg (by omega), if_neg (by omega), if_pos ⟨by omega, hin, trivial⟩,
        hkk, hkk1, hkk2, hik i hi hin, hik1 i hi hin, e5]
    refine .two k kp _ _ hk hkp ?_ ?_ hdet ?_ ?_ ?_ hM0 hM1 ?_ (h4 rfl)
    · simp [bkStep, bkSetPiv]
    · simp [bkStep, bkSetPiv]
    · rw [hst, bkElim2_eq]
      simp only
      rw [if_pos ⟨trivial, trivial⟩, hkk, hkk1, hkk2, e1]
    · rw [hst, bkElim2_eq]
      simp only
      rw [if_neg (by omega), if_pos ⟨trivial, trivial⟩, hkk, hkk1, hkk2, e2]
    · rw [hst, bkElim2_eq]
      simp only
      rw [if_neg (by omega), if_neg (by omega), if_pos ⟨trivial, trivial⟩, hkk, hkk1, hkk2, e3]
    · have key : ∀ i j, k + 1 < j → j ≤ i → i < n → (bkStep n k true kp s).a i j =
          symRow s.a (swap (k + 1) kp i) (swap (k + 1) kp j) -
            (symRow s.a (swap (k + 1) kp i) k * ((symRow s.a kp kp * symRow s.a (swap (k + 1) kp j) k -
                symRow s.a kp k * symRow s.a (swap (k + 1) kp j) kp) / (symRow s.a k k * symRow s.a kp kp - symRow s.a kp k * symRow s.a kp k)) +
              symRow s.a (swap (k + 1) kp i) kp * ((symRow s.a k k * symRow s.a (swap (k + 1) kp j) kp -
                symRow s.a kp k * symRow s.a (swap (k + 1) kp j) k) / (symRow s.a k k * symRow s.a kp kp - symRow s.a kp k * symRow s.a kp k))) := by
        intro i j hj hji hin
        rw [hst, bkElim2_eq]
        simp only
        rw [if_neg (by omega), if_neg (by omega), if_neg (by omega), if_pos ⟨by omega, hji, hin⟩, hkk, hkk1, hkk2,
          hik i (by omega) hin, hik1 i (by omega) hin, hik j hj (by omega), hik1 j hj (by omega), e4, e5, hsw i j (by omega) hji hin]
      intro i j hi hin hj hjn
      rw [hM0 i hi hin, hM1 i hi hin]
      by_cases hji : j ≤ i
      · rw [show symRow (bkStep n k true kp s).a i j = (bkStep n k true kp s).a i j from if_pos hji, key i j hj hji hin]
        ring
      · rw [show symRow (bkStep n k true kp s).a i j = (bkStep n k true kp s).a j i from if_neg hji, key j i hi (by omega) hjn,
          symRow_symm s.a (swap (k + 1) kp j) (swap (k + 1) kp i)]
        ring

theorem forRange_congr_range {σ : Type} (lo n : ℕ) (f g : ℕ → σ → σ) (s : σ) (h : ∀ i, lo ≤ i → i < lo + n → ∀ s, f i s = g i s) :
    forRange lo n f s = forRange lo n g s := by
  induction n with
  | zero => rfl
  | succ n ih =>
    simp only [forRange]
    rw [ih fun i h1 h2 => h i h1 (by omega), h (lo + n) (by omega) (by omega)]

theorem maxAbs_congr (f g : ℕ → K) (len : ℕ) (h : ∀ i < len, f i = g i) (hl : 0 < len) : maxAbs f len = maxAbs g len := by
  unfold maxAbs
  rw [h 0 hl]
  exact forRange_congr_range 1 (len - 1) _ _ _ fun i h1 h2 b => by rw [h i (by omega)]

theorem bkColMax_congr (n k : ℕ) (f g : ℕ → K) (h : ∀ i, k ≤ i → i < n → f i = g i) : bkColMax n k f = bkColMax n k g := by
  unfold bkColMax
  by_cases hk : k + 1 < n
  · simp only [if_pos hk]
    rw [maxAbs_congr (fun i => f (k + 1 + i)) (fun i => g (k + 1 + i)) (n - k - 1) (fun i hi => h _ (by omega) (by omega)) (by omega)]
  · simp only [if_neg hk]

theorem bkRowMax_congr (n k r : ℕ) (f g : ℕ → K) (h : ∀ i, k ≤ i → i < n → f i = g i) (hk : k ≤ r) (hr : r < n) :
    bkRowMax n k r f = bkRowMax n k r g := by
  unfold bkRowMax
  have e1 : 0 < r - k → maxAbs (fun j => f (k + j)) (r - k) = maxAbs (fun j => g (k + j)) (r - k) := fun hl =>
    maxAbs_congr _ _ _ (fun i hi => h _ (by omega) (by omega)) hl
  have e2 : 0 < n - r - 1 → maxAbs (fun i => f (r + 1 + i)) (n - r - 1) = maxAbs (fun i => g (r + 1 + i)) (n - r - 1) := fun hl =>
    maxAbs_congr _ _ _ (fun i hi => h _ (by omega) (by omega)) hl
  by_cases a1 : 0 < r - k <;> by_cases a2 : 0 < n - r - 1 <;> simp only [a1, a2, if_true, if_false, e1, e2]

/-- the choice depends on the trailing matrix only -/
theorem bkChoose_congr (alpha : K) (h0 : 0 < alpha) (n k : ℕ) (hk : k < n) (f g : ℕ → K) (F G : ℕ → ℕ → K)
    (h : ∀ i, k ≤ i → i < n → f i = g i) (hF : ∀ i j, k ≤ i → i < n → k ≤ j → j < n → F i j = G i j) :
    bkChoose alpha n k f F = bkChoose alpha n k g G := by
  unfold bkChoose
  obtain ⟨c0, c1, c2⟩ := bkColMax_spec n k g hk
  simp only
  rw [bkColMax_congr n k f g h, h k le_rfl hk]
  by_cases hc : 0 < (bkColMax n k g).2
  · obtain ⟨d1, d2, -⟩ := c2 hc
    rw [bkRowMax_congr n k (bkColMax n k g).1 (F (bkColMax n k g).1) (G (bkColMax n k g).1) (fun i hi hin => hF _ _ d1.le d2 hi hin)
      d1.le d2, hF _ _ d1.le d2 d1.le d2]
  · have hz : (bkColMax n k g).2 = 0 := le_antisymm (not_lt.1 hc) c0
    rw [hz]
    simp

/-- the unblocked loop is a sequence of pivot steps, complete on success; on failure it stops at a zero column -/
theorem bkLoop_spec (alpha : K) (h0 : 0 < alpha) (h1 : alpha < 1) (n : ℕ) (k : ℕ) (s : BkSt K) (hkn : k ≤ n) :
    let r := bkLoop alpha n k s
    ∃ k', ReflTransGen (BkOne alpha n r.2.piv r.2.a) (k, symRow s.a) (k', symRow r.2.a) ∧ k ≤ k' ∧
      (∀ c < k, r.2.piv c = s.piv c ∧ ∀ i, r.2.a i c = s.a i c) ∧ (∀ c, k' ≤ c → r.2.piv c = s.piv c) ∧
      (r.1 = true → k' = n) ∧ (r.1 = false → k' < n ∧ ∀ i, k' ≤ i → i < n → symRow r.2.a i k' = 0) := by
  induction k, s using bkLoop.induct alpha n with
  | case1 k s hk hnone =>
    have hc := bkChoose_spec alpha h0 h1 n k (symRow s.a) hk fun i j _ _ _ _ => symRow_symm s.a i j
    have hcol : bkChoose alpha n k (fun i => symRow s.a i k) (symRow s.a) = bkChoose alpha n k (fun i => s.a i k) (symRow s.a) :=
      bkChoose_congr alpha h0 n k hk _ _ _ _ (fun i hi _ => if_pos hi) fun _ _ _ _ _ _ => rfl
    rw [hcol, hnone] at hc
    rw [bkLoop, if_pos hk, hnone]
    exact ⟨k, .refl, le_rfl, fun c _ => ⟨rfl, fun i => rfl⟩, fun c _ => rfl, by simp, fun _ => ⟨hk, hc⟩⟩
  | case2 k s hk kp two hsome ih =>
    have hc := bkChoose_spec alpha h0 h1 n k (symRow s.a) hk fun i j _ _ _ _ => symRow_symm s.a i j
    have hcol : bkChoose alpha n k (fun i => symRow s.a i k) (symRow s.a) = bkChoose alpha n k (fun i => s.a i k) (symRow s.a) :=
      bkChoose_congr alpha h0 n k hk _ _ _ _ (fun i hi _ => if_pos hi) fun _ _ _ _ _ _ => rfl
    have hg := bkChoose_good alpha h0 h1 n k (symRow s.a) hk fun i j _ _ _ _ => symRow_symm s.a i j
    rw [hcol, hsome] at hc hg
    rw [bkLoop, if_pos hk, hsome]
    simp only [dite_eq_ite] at ih
    have hlow : (if two then k + 1 else k) ≤ kp ∧ kp < n ∧ (two = false → symRow s.a kp kp ≠ 0) ∧
        (two = true → symRow s.a kp k ≠ 0 ∧ symRow s.a k k * symRow s.a kp kp - symRow s.a kp k * symRow s.a kp k < 0) := by
      cases two
      · exact ⟨by simpa using hc.1, hc.2.1, fun _ => hc.2.2, by simp⟩
      · exact ⟨by simpa using hc.1, hc.2.1, by simp, fun _ => ⟨hc.2.2.1, hc.2.2.2⟩⟩
    obtain ⟨b1, b2, b3, b4⟩ := hlow
    have hstep := bkStep_one (alpha := alpha) n k two kp s b1 b2 b3 b4 (by rintro rfl; exact hg) (by rintro rfl; exact hg)
    have hle := hstep.lt
    simp only at hle
    obtain ⟨k', g1, g2, g3, g4, g5, g6⟩ := ih hle.2
    refine ⟨k', .head (hstep.congr ?_ ?_) g1, by omega, fun c hc => ?_, fun c hc => ?_, g5, g6⟩
    · intro c _ hc; exact (g3 c hc).1
    · intro c _ hc i _ _; exact (g3 c hc).2 i
    · obtain ⟨e1, e2⟩ := g3 c (by omega)
      exact ⟨e1.trans (bkStep_left n k two kp s b1 0 c hc).2, fun i => (e2 i).trans (bkStep_left n k two kp s b1 i c hc).1⟩
    · rw [g4 c hc]
      simp only [bkStep, bkSetPiv]
      cases two
      · simp only [Bool.false_eq_true, if_false] at hle g2 ⊢
        rw [if_neg (by omega)]
      · simp only [if_true] at hle g2 ⊢
        rw [if_neg (by omega)]
  | case3 k s hk =>
    rw [bkLoop, if_neg hk]
    exact ⟨k, .refl, le_rfl, fun c _ => ⟨rfl, fun i => rfl⟩, fun c _ => rfl, fun _ => by omega, by simp⟩

end ProxNLP
