import Verif.Lemmas.BkBlocked
import Verif.Lemmas.BkObj
import Mathlib.Tactic.Linarith
import Mathlib.Tactic.FieldSimp
import Mathlib.Tactic.Positivity

/-! Kernel vectors of the trailing matrices, and the block diagonal factor as a weighted sum of squares. -/

set_option linter.unusedSectionVars false
namespace ProxNLP

variable {K : Type} [Field K] [LinearOrder K] [IsStrictOrderedRing K]

open Equiv (swap)
open Relation (ReflTransGen)

/-- a sum over `[k, n)` may be taken in the order given by an interchange of two of its indices -/
theorem sum_swap {k n p q : ℕ} (hp : k ≤ p) (hpn : p < n) (hq : k ≤ q) (hqn : q < n) (f : ℕ → K) :
    ∑ j ∈ Finset.Ico k n, f (swap p q j) = ∑ j ∈ Finset.Ico k n, f j := by
  refine Finset.sum_bij' (fun j _ => swap p q j) (fun j _ => swap p q j) ?_ ?_ ?_ ?_ ?_
  · intro j hj
    rw [Finset.mem_Ico] at hj ⊢
    exact swap_mem hp hpn hq hqn hj.1 hj.2
  · intro j hj
    rw [Finset.mem_Ico] at hj ⊢
    exact swap_mem hp hpn hq hqn hj.1 hj.2
  · intro j _; exact swap_swap_app p q j
  · intro j _; exact swap_swap_app p q j
  · intro j _; rfl

/-- a non-zero vector on `[k, n)` annihilated by `S` -/
def KerVec (k n : ℕ) (S : ℕ → ℕ → K) (u : ℕ → K) : Prop :=
  (∃ i, k ≤ i ∧ i < n ∧ u i ≠ 0) ∧ ∀ i, k ≤ i → i < n → ∑ j ∈ Finset.Ico k n, S i j * u j = 0

theorem KerVec.unswap {k n p q : ℕ} {S : ℕ → ℕ → K} (hp : k ≤ p) (hpn : p < n) (hq : k ≤ q) (hqn : q < n) {u : ℕ → K}
    (h : KerVec k n (fun i j => S (swap p q i) (swap p q j)) u) : KerVec k n S fun j => u (swap p q j) := by
  obtain ⟨⟨i, h1, h2, h3⟩, h4⟩ := h
  refine ⟨⟨swap p q i, (swap_mem hp hpn hq hqn h1 h2).1, (swap_mem hp hpn hq hqn h1 h2).2, ?_⟩, ?_⟩
  · simp only [swap_swap_app]; exact h3
  · intro i hi hin
    obtain ⟨m1, m2⟩ := swap_mem hp hpn hq hqn hi hin
    have := h4 (swap p q i) m1 m2
    simp only [swap_swap_app] at this
    rw [← sum_swap hp hpn hq hqn]
    simpa only [swap_swap_app] using this

theorem BkOne.ker {alpha : K} {n : ℕ} {piv : ℕ → ℤ} {M : ℕ → ℕ → K} {x y} (h : BkOne alpha n piv M x y) (hs : SymOn x.1 n x.2)
    (hk : ∃ u, KerVec y.1 n y.2 u) : ∃ u, KerVec x.1 n x.2 u := by
  obtain ⟨u, ⟨i0, a1, a2, a3⟩, hu⟩ := hk
  cases h with
  | one k kp S T hk hkp hpiv hne hd hl hT =>
    simp only at *
    refine ⟨_, KerVec.unswap le_rfl (by omega) hk hkp (u := fun j => if j = k then -∑ j ∈ Finset.Ico (k + 1) n, M j k * u j else u j) ?_⟩
    have hsum : ∀ f : ℕ → K, ∑ j ∈ Finset.Ico (k + 1) n, f j * (if j = k then -∑ j ∈ Finset.Ico (k + 1) n, M j k * u j else u j) =
        ∑ j ∈ Finset.Ico (k + 1) n, f j * u j := by
      intro f
      refine Finset.sum_congr rfl fun j hj => ?_
      rw [Finset.mem_Ico] at hj
      rw [if_neg (by omega)]
    have hb : ∀ j, k < j → j < n → S kp (swap k kp j) = M j k * S kp kp := by
      intro j h1 h2
      obtain ⟨m1, m2⟩ := swap_mem (n := n) le_rfl (by omega) hk hkp (show k ≤ j by omega) h2
      rw [hl j h1 h2, hs kp _ hk hkp m1 m2]
      field_simp
    refine ⟨⟨i0, by omega, a2, by simp only; rw [if_neg (by omega)]; exact a3⟩, fun i hi hin => ?_⟩
    simp only
    rw [Finset.sum_eq_sum_Ico_succ_bot (by omega), hsum fun j => S (swap k kp i) (swap k kp j), if_pos rfl, Equiv.swap_apply_left]
    by_cases hik : i = k
    · subst hik
      rw [Equiv.swap_apply_left, mul_neg, Finset.mul_sum, neg_add_eq_zero]
      refine Finset.sum_congr rfl fun j hj => ?_
      rw [Finset.mem_Ico] at hj
      rw [hb j (by omega) hj.2]
      ring
    · rw [← hu i (by omega) hin, mul_neg, Finset.mul_sum, neg_add_eq_sub, ← Finset.sum_sub_distrib]
      refine Finset.sum_congr rfl fun j hj => ?_
      rw [Finset.mem_Ico] at hj
      rw [hT i j (by omega) hin (by omega) hj.2, hl j (by omega) hj.2, hl i (by omega) hin]
      field_simp
  | two k kp S T hk hkp hpiv hpiv' hdet hd0 hd1 hd2 hl0 hl1 hT =>
    simp only at *
    set w0 := -∑ j ∈ Finset.Ico (k + 2) n, M j k * u j with hw0
    set w1 := -∑ j ∈ Finset.Ico (k + 2) n, M j (k + 1) * u j with hw1
    refine ⟨_, KerVec.unswap (show k ≤ k + 1 by omega) (by omega) (by omega) hkp
      (u := fun j => if j = k then w0 else if j = k + 1 then w1 else u j) ?_⟩
    have hsum : ∀ f : ℕ → K, ∑ j ∈ Finset.Ico (k + 2) n, f j * (if j = k then w0 else if j = k + 1 then w1 else u j) =
        ∑ j ∈ Finset.Ico (k + 2) n, f j * u j := by
      intro f
      refine Finset.sum_congr rfl fun j hj => ?_
      rw [Finset.mem_Ico] at hj
      rw [if_neg (by omega), if_neg (by omega)]
    have hsk : swap (k + 1) kp k = k := Equiv.swap_apply_of_ne_of_ne (by omega) (by omega)
    have hdet' : S k k * S kp kp - S kp k * S kp k ≠ 0 := hdet.ne
    refine ⟨⟨i0, by omega, a2, by simp only; rw [if_neg (by omega), if_neg (by omega)]; exact a3⟩, fun i hi hin => ?_⟩
    simp only
    rw [Finset.sum_eq_sum_Ico_succ_bot (by omega), Finset.sum_eq_sum_Ico_succ_bot (by omega),
      hsum fun j => S (swap (k + 1) kp i) (swap (k + 1) kp j), if_pos rfl, if_neg (by omega), if_pos rfl, Equiv.swap_apply_left, hsk]
    have hcomb : ∀ a b : K, a * w0 + (b * w1 + ∑ j ∈ Finset.Ico (k + 1 + 1) n, S (swap (k + 1) kp i) (swap (k + 1) kp j) * u j) =
        ∑ j ∈ Finset.Ico (k + 2) n, (S (swap (k + 1) kp i) (swap (k + 1) kp j) - (a * M j k + b * M j (k + 1))) * u j := by
      intro a b
      rw [hw0, hw1, mul_neg, mul_neg, Finset.mul_sum, Finset.mul_sum, ← Finset.sum_neg_distrib, ← Finset.sum_neg_distrib,
        ← Finset.sum_add_distrib, ← Finset.sum_add_distrib]
      exact Finset.sum_congr rfl fun j _ => by ring
    rw [hcomb]
    have hmem : ∀ j, k + 2 ≤ j → j < n → k ≤ swap (k + 1) kp j ∧ swap (k + 1) kp j < n := fun j h1 h2 =>
      swap_mem (by omega) (by omega) (by omega) hkp (by omega) h2
    by_cases hik : i = k
    · subst hik
      refine Finset.sum_eq_zero fun j hj => ?_
      rw [Finset.mem_Ico] at hj
      obtain ⟨m1, m2⟩ := hmem j hj.1 hj.2
      rw [hsk, hl0 j (by omega) hj.2, hl1 j (by omega) hj.2, hs i _ le_rfl hin m1 m2, hs i kp le_rfl hin (by omega) hkp]
      linear_combination (-(S (swap (i + 1) kp j) i) * u j) * mul_inv_cancel₀ hdet'
    · by_cases hik1 : i = k + 1
      · subst hik1
        refine Finset.sum_eq_zero fun j hj => ?_
        rw [Finset.mem_Ico] at hj
        obtain ⟨m1, m2⟩ := hmem j hj.1 hj.2
        rw [Equiv.swap_apply_left, hl0 j (by omega) hj.2, hl1 j (by omega) hj.2, hs kp _ (by omega) hkp m1 m2]
        linear_combination (-(S (swap (k + 1) kp j) kp) * u j) * mul_inv_cancel₀ hdet'
      · have h1 := hu i (by omega) hin
        rw [← h1]
        refine Finset.sum_congr rfl fun j hj => ?_
        rw [Finset.mem_Ico] at hj
        rw [hT i j (by omega) hin (by omega) hj.2, hl0 j (by omega) hj.2, hl1 j (by omega) hj.2, hl0 i (by omega) hin,
          hl1 i (by omega) hin]
        ring

theorem chain_ker {alpha : K} {n : ℕ} {piv : ℕ → ℤ} {M : ℕ → ℕ → K} {x y} (h : ReflTransGen (BkOne alpha n piv M) x y) (hs : SymOn x.1 n x.2)
    (hk : ∃ u, KerVec y.1 n y.2 u) : ∃ u, KerVec x.1 n x.2 u := by
  induction h with
  | refl => exact hk
  | tail h0 h1 ih => exact ih (h1.ker (chain_sym h0 hs) hk)

/-- a zero column in a trailing matrix gives a kernel vector of the whole matrix -/
theorem singular_of_chain {alpha : K} {n : ℕ} {piv : ℕ → ℤ} {M : ℕ → ℕ → K} {S0 T : ℕ → ℕ → K} {k : ℕ}
    (h : ReflTransGen (BkOne alpha n piv M) (0, S0) (k, T)) (hs : SymOn 0 n S0) (hk : k < n) (hz : ∀ i, k ≤ i → i < n → T i k = 0) :
    ∃ u, KerVec 0 n S0 u := by
  refine chain_ker h hs ⟨fun j => if j = k then 1 else 0, ⟨k, le_rfl, hk, by simp⟩, fun i hi hin => ?_⟩
  refine Finset.sum_eq_zero fun j hj => ?_
  simp only
  split_ifs with hj
  · rw [hj, hz i hi hin, zero_mul]
  · rw [mul_zero]

/-! ### squares -/

/-- an indefinite binary form as a difference of two independent squares -/
theorem two_squares (a b d : K) (h : a * d - b * b < 0) : ∃ p q r s e f : K, p * s - q * r ≠ 0 ∧ e < 0 ∧ 0 < f ∧
    ∀ u v : K, a * u * u + b * u * v + b * v * u + d * v * v = e * (p * u + q * v) ^ 2 + f * (r * u + s * v) ^ 2 := by
  rcases lt_trichotomy a 0 with ha | ha | ha
  · refine ⟨1, b / a, 0, 1, a, (a * d - b * b) / a, by simp, ha, div_pos_of_neg_of_neg h ha, fun u v => ?_⟩
    have := ha.ne
    field_simp
    ring
  · subst ha
    have hb : b ≠ 0 := by rintro rfl; simp at h
    rcases lt_trichotomy d 0 with hd | hd | hd
    · refine ⟨b / d, 1, 1, 0, d, -(b * b) / d, by simp, hd, div_pos_of_neg_of_neg (by simpa using h) hd, fun u v => ?_⟩
      have := hd.ne
      field_simp
      ring
    · subst hd
      refine ⟨1, -b, 1, b, -1 / 2, 1 / 2, ?_, by norm_num, by norm_num, fun u v => by ring⟩
      intro hc
      apply hb
      linarith
    · refine ⟨1, 0, b / d, 1, -(b * b) / d, d, by simp, div_neg_of_neg_of_pos (by simpa using h) hd, hd, fun u v => ?_⟩
      have := hd.ne'
      field_simp
      ring
  · refine ⟨0, 1, 1, b / a, (a * d - b * b) / a, a, by simp, div_neg_of_neg_of_pos h ha, ha, fun u v => ?_⟩
    have := ha.ne'
    field_simp
    ring

/-- a function of the columns given by cases: column of a 1x1 block, first and second column of a 2x2 block starting at the
argument -/
def byBlock {α : Type} (piv : ℕ → ℤ) (one fst snd : ℕ → α) (c : ℕ) : α :=
  if twoAt piv c then fst c else if 0 < c ∧ twoAt piv (c - 1) = true then snd (c - 1) else one c

theorem byBlock_two {α : Type} {piv : ℕ → ℤ} {one fst snd : ℕ → α} {c : ℕ} (h : twoAt piv c = true) :
    byBlock piv one fst snd c = fst c ∧ byBlock piv one fst snd (c + 1) = snd c := by
  have h' : twoAt piv (c + 1) = false := by simp [twoAt, h]
  constructor
  · rw [byBlock, if_pos h]
  · rw [byBlock, if_neg (by simp [h']), if_pos ⟨by omega, h⟩]; rfl

theorem byBlock_one {α : Type} {piv : ℕ → ℤ} {one fst snd : ℕ → α} {c : ℕ} (h : twoAt piv c = false) (h' : notSecond piv c) :
    byBlock piv one fst snd c = one c := by
  rw [byBlock, if_neg (by simp [h]), if_neg]
  rintro ⟨h1, h2⟩
  obtain ⟨c, rfl⟩ := Nat.exists_eq_add_of_lt h1
  simp only [Nat.zero_add, notSecond, Nat.add_sub_cancel] at h' h2
  rw [h'] at h2
  cases h2

/-- the linear forms of `two_squares` for each block; `P c = (p, q, r, s)` at the first column of a 2x2 block -/
def blockForm (piv : ℕ → ℤ) (P : ℕ → K × K × K × K) (w : ℕ → K) : ℕ → K :=
  byBlock piv w (fun c => (P c).1 * w c + (P c).2.1 * w (c + 1)) fun c => (P c).2.2.1 * w c + (P c).2.2.2 * w (c + 1)

theorem blockForm_two {piv : ℕ → ℤ} {P : ℕ → K × K × K × K} {w : ℕ → K} {c : ℕ} (h : twoAt piv c = true) :
    blockForm piv P w c = (P c).1 * w c + (P c).2.1 * w (c + 1) ∧
    blockForm piv P w (c + 1) = (P c).2.2.1 * w c + (P c).2.2.2 * w (c + 1) := byBlock_two h

theorem blockForm_one {piv : ℕ → ℤ} {P : ℕ → K × K × K × K} {w : ℕ → K} {c : ℕ} (h : twoAt piv c = false) (h' : notSecond piv c) :
    blockForm piv P w c = w c := byBlock_one h h'

theorem blockDiag_squares {n : ℕ} {piv : ℕ → ℤ} {M D : ℕ → ℕ → K} (h : PivPath n piv 0) (hD : BkBlockDiag n piv M D 0) :
    ∃ (P : ℕ → K × K × K × K) (e : ℕ → K),
      (∀ w : ℕ → K, ∑ c ∈ Finset.Ico 0 n, ∑ c' ∈ Finset.Ico 0 n, D c c' * w c * w c' =
        ∑ c ∈ Finset.Ico 0 n, e c * blockForm piv P w c ^ 2) ∧
      (∀ c < n, twoAt piv c = true → (P c).1 * (P c).2.2.2 - (P c).2.1 * (P c).2.2.1 ≠ 0 ∧ e c < 0 ∧ 0 < e (c + 1)) ∧
      (∀ c < n, twoAt piv c = false → notSecond piv c → e c = D c c) := by
  classical
  have hex : ∀ c, ∃ p q r s e f : K, c + 1 < n → twoAt piv c = true → p * s - q * r ≠ 0 ∧ e < 0 ∧ 0 < f ∧
      ∀ u v : K, D c c * u * u + D (c + 1) c * u * v + D (c + 1) c * v * u + D (c + 1) (c + 1) * v * v =
        e * (p * u + q * v) ^ 2 + f * (r * u + s * v) ^ 2 := by
    intro c
    by_cases hc : c + 1 < n ∧ twoAt piv c = true
    · obtain ⟨p, q, r, s, e, f, hh⟩ := two_squares _ _ _ (hD.double c (Nat.zero_le _) hc.1 hc.2).1
      exact ⟨p, q, r, s, e, f, fun _ _ => hh⟩
    · exact ⟨0, 0, 0, 0, 0, 0, fun h1 h2 => absurd ⟨h1, h2⟩ hc⟩
  choose p q r s e f hpq using hex
  refine ⟨fun c => (p c, q c, r c, s c), byBlock piv (fun c => D c c) e f, ?_, ?_, ?_⟩
  · intro w
    have key : ∀ k, PivPath n piv k → notSecond piv k →
        ∑ c ∈ Finset.Ico k n, ∑ c' ∈ Finset.Ico k n, D c c' * w c * w c' =
          ∑ c ∈ Finset.Ico k n, byBlock piv (fun c => D c c) e f c *
              blockForm piv (fun c => (p c, q c, r c, s c)) w c ^ 2 := by
      intro k hk
      induction hk with
      | done => simp
      | one k p0 h1 h2 h3 hr ih =>
        intro hns
        have ht : twoAt piv k = false := by rw [twoAt_of_notSecond hns, h3]; simp
        have hz : ∀ c, c ∈ Finset.Ico (k + 1) n → D k c = 0 ∧ D c k = 0 := by
          intro c hc
          rw [Finset.mem_Ico] at hc
          have := hD.zero k c (Nat.zero_le _) (by omega) hc.2 (by simp [ht])
          exact ⟨this, by rw [hD.sym c k (Nat.zero_le _) hc.2 (Nat.zero_le _) (by omega), this]⟩
        rw [sum_peel k n (by omega), Finset.sum_eq_zero (fun c hc => by rw [(hz c hc).1]; ring),
          Finset.sum_eq_zero (s := Finset.Ico (k + 1) n) (f := fun c => D c k * w c * w k) (fun c hc => by rw [(hz c hc).2]; ring),
          ih (notSecond_one hns (by omega)), Finset.sum_eq_sum_Ico_succ_bot (show k < n by omega), blockForm_one ht hns, byBlock_one ht hns]
        ring
      | two k p0 h1 h2 h3 h4 hr ih =>
        intro hns
        have ht : twoAt piv k = true := by rw [twoAt_of_notSecond hns, h3]; simp; omega
        have ht' : twoAt piv (k + 1) = false := by simp [twoAt, ht]
        have hz : ∀ c, c ∈ Finset.Ico (k + 2) n → D k c = 0 ∧ D c k = 0 ∧ D (k + 1) c = 0 ∧ D c (k + 1) = 0 := by
          intro c hc
          rw [Finset.mem_Ico] at hc
          have a1 := hD.zero k c (Nat.zero_le _) (by omega) hc.2 (by omega)
          have a2 := hD.zero (k + 1) c (Nat.zero_le _) (by omega) hc.2 (by simp [ht'])
          exact ⟨a1, by rw [hD.sym c k (Nat.zero_le _) hc.2 (Nat.zero_le _) (by omega), a1], a2,
            by rw [hD.sym c (k + 1) (Nat.zero_le _) hc.2 (Nat.zero_le _) (by omega), a2]⟩
        rw [sum_peel k n (by omega), sum_peel (k + 1) n (by omega), Finset.sum_eq_sum_Ico_succ_bot (show k + 1 < n by omega),
          Finset.sum_eq_sum_Ico_succ_bot (show k + 1 < n by omega) (fun c => D c k * w c * w k),
          Finset.sum_eq_zero (s := Finset.Ico (k + 1 + 1) n) (f := fun c => D k c * w k * w c) (fun c hc => by rw [(hz c hc).1]; ring),
          Finset.sum_eq_zero (s := Finset.Ico (k + 1 + 1) n) (f := fun c => D c k * w c * w k) (fun c hc => by rw [(hz c hc).2.1]; ring),
          Finset.sum_eq_zero (s := Finset.Ico (k + 1 + 1) n) (f := fun c => D (k + 1) c * w (k + 1) * w c)
            (fun c hc => by rw [(hz c hc).2.2.1]; ring),
          Finset.sum_eq_zero (s := Finset.Ico (k + 1 + 1) n) (f := fun c => D c (k + 1) * w c * w (k + 1))
            (fun c hc => by rw [(hz c hc).2.2.2]; ring),
          ih (notSecond_two hns (by omega)), Finset.sum_eq_sum_Ico_succ_bot (show k < n by omega),
          Finset.sum_eq_sum_Ico_succ_bot (show k + 1 < n by omega) (fun c => _ * blockForm piv _ w c ^ 2),
          (blockForm_two ht).1, (blockForm_two ht).2, (byBlock_two ht).1, (byBlock_two ht).2]
        have := (hpq k (by omega) ht).2.2.2 (w k) (w (k + 1))
        rw [hD.sym k (k + 1) (Nat.zero_le _) (by omega) (Nat.zero_le _) (by omega)]
        linear_combination this
    exact key 0 h trivial
  · intro c hc ht
    have ht' : twoAt piv (c + 1) = false := by simp [twoAt, ht]
    obtain ⟨a1, a2, a3, -⟩ := hpq c (by
      rcases h.cases trivial c (Nat.zero_le _) hc with ⟨h1, -⟩ | ⟨-, h1⟩ | ⟨c0, rfl, -, h1⟩
      · rw [ht] at h1; cases h1
      · exact h1
      · simp [twoAt, h1] at ht) ht
    exact ⟨a1, by rw [(byBlock_two ht).1]; exact a2, by rw [(byBlock_two ht).2]; exact a3⟩
  · intro c hc ht hns
    rw [byBlock_one ht hns]

end ProxNLP
