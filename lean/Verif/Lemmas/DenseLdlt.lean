import Verif.Model.DenseLdlt
import Verif.Model.BlockPerm
import Verif.Lemmas.BlockKind
import Mathlib.Tactic.FieldSimp

/-! Lemmas on the dense LDLT factorisation. -/

set_option linter.unusedSectionVars false
namespace ProxNLP

open Spec

section
variable {K : Type} [Field K]

/-- the factor stored in the lower half of `M` reproduces the lower half of `A` -/
def LowerLdl (n : ℕ) (A M : ℕ → ℕ → K) : Prop :=
  (∀ c < n, A c c = ∑ k ∈ Finset.range c, M c k * M k k * M c k + M c c) ∧
  (∀ c < n, M c c ≠ 0 → ∀ i < n, c < i → A i c = ∑ k ∈ Finset.range c, M i k * M k k * M c k + M i c * M c c)

theorem LowerLdl.isLDL {n : ℕ} {A M : ℕ → ℕ → K} (h : LowerLdl n A M) (hp : ∀ k, k + 1 < n → M k k ≠ 0) :
    IsLDL n (matCoeff A) (unitLower M) (fun k => M k k) := by
  have hent : ∀ i < n, ∀ j ≤ i, A i j = ∑ k ∈ Finset.range n, unitLower M i k * M k k * unitLower M j k := by
    intro i hi j hj
    have h1 : ∑ k ∈ Finset.range n, unitLower M i k * M k k * unitLower M j k =
        ∑ k ∈ Finset.range (j + 1), unitLower M i k * M k k * unitLower M j k := by
      symm
      apply Finset.sum_subset (Finset.range_mono (by omega))
      intro k hk hk'
      rw [Finset.mem_range] at hk hk'
      have : unitLower M j k = 0 := by
        simp only [unitLower]; rw [if_neg (by omega), if_neg (by omega)]
      rw [this, mul_zero]
    rw [h1, Finset.sum_range_succ]
    have h2 : ∑ k ∈ Finset.range j, unitLower M i k * M k k * unitLower M j k = ∑ k ∈ Finset.range j, M i k * M k k * M j k := by
      refine Finset.sum_congr rfl fun k hk => ?_
      rw [Finset.mem_range] at hk
      simp only [unitLower]
      rw [if_neg (by omega), if_pos (by omega), if_neg (by omega), if_pos (by omega)]
    have h3 : unitLower M j j = 1 := by simp [unitLower]
    rw [h2, h3, mul_one]
    by_cases hij : j = i
    · subst hij
      rw [h3, one_mul]
      exact h.1 j hi
    · have h4 : unitLower M i j = M i j := by
        simp only [unitLower]; rw [if_neg (by omega), if_pos (by omega)]
      rw [h4]
      exact h.2 j (by omega) (hp j (by omega)) i hi (by omega)
  constructor
  · intro i _; simp [unitLower]
  · intro i _ j _ hij; simp only [unitLower]; rw [if_neg (by omega), if_neg (by omega)]
  · exact hp
  · intro i hi j hj
    simp only [matCoeff]
    split
    · exact hent i hi j (by omega)
    · rw [hent j hj i (by omega)]
      exact Finset.sum_congr rfl fun k _ => by ring

/-- composition of block factorisations -/
theorem LowerLdl.append {b m : ℕ} {A M : ℕ → ℕ → K} (h0 : LowerLdl b A M) (hp : ∀ k < b, M k k ≠ 0)
    (h10 : ∀ i < m, ∀ c < b, A (b + i) c = ∑ k ∈ Finset.range c, M (b + i) k * M k k * M c k + M (b + i) c * M c c)
    (h11 : LowerLdl m (fun i j => A (b + i) (b + j) - ∑ k ∈ Finset.range b, M (b + i) k * M k k * M (b + j) k)
      (fun i j => M (b + i) (b + j))) : LowerLdl (b + m) A M := by
  constructor
  · intro c hc
    by_cases hcb : c < b
    · exact h0.1 c hcb
    · obtain ⟨c', rfl⟩ : ∃ c', c = b + c' := ⟨c - b, by omega⟩
      have := h11.1 c' (by omega)
      simp only at this
      rw [Finset.sum_range_add]
      linear_combination this
  · intro c hc hne i hi hci
    by_cases hcb : c < b
    · by_cases hib : i < b
      · exact h0.2 c hcb hne i hib hci
      · obtain ⟨i', rfl⟩ : ∃ i', i = b + i' := ⟨i - b, by omega⟩
        exact h10 i' (by omega) c hcb
    · obtain ⟨c', rfl⟩ : ∃ c', c = b + c' := ⟨c - b, by omega⟩
      obtain ⟨i', rfl⟩ : ∃ i', i = b + i' := ⟨i - b, by omega⟩
      have := h11.2 c' (by omega) hne i' (by omega) (by omega)
      simp only at this
      rw [Finset.sum_range_add]
      linear_combination this

theorem LowerLdl.congr {n : ℕ} {A A' M M' : ℕ → ℕ → K} (h : LowerLdl n A M) (hA : ∀ i < n, ∀ c ≤ i, A' i c = A i c)
    (hM : ∀ i < n, ∀ c ≤ i, M' i c = M i c) : LowerLdl n A' M' := by
  have hsum : ∀ i < n, ∀ c < n, c ≤ i → ∑ k ∈ Finset.range c, M' i k * M' k k * M' c k =
      ∑ k ∈ Finset.range c, M i k * M k k * M c k := by
    intro i hi c hc hci
    refine Finset.sum_congr rfl fun k hk => ?_
    rw [Finset.mem_range] at hk
    rw [hM i hi k (by omega), hM k (by omega) k le_rfl, hM c hc k (by omega)]
  constructor
  · intro c hc
    rw [hA c hc c le_rfl, hsum c hc c hc le_rfl, hM c hc c le_rfl]
    exact h.1 c hc
  · intro c hc hne i hi hci
    rw [hM c hc c le_rfl] at hne
    rw [hA i hi c (by omega), hsum i hi c hc (by omega), hM i hi c (by omega), hM c hc c le_rfl]
    exact h.2 c hc hne i hi hci

/-- forward substitution solves the unit lower triangular system -/
theorem fwdUnit_spec (n : ℕ) (M : ℕ → ℕ → K) (b : ℕ → K) :
    (∀ i < n, ∑ k ∈ Finset.range i, M i k * fwdUnit n M b k + fwdUnit n M b i = b i) ∧
    (∀ i, n ≤ i → fwdUnit n M b i = b i) := by
  refine forRange_ind (fun j x => (∀ i < j, ∑ k ∈ Finset.range i, M i k * x k + x i = b i) ∧ ∀ i, j ≤ i → x i = b i) 0 n _ b
    ⟨fun i hi => by omega, fun _ _ => rfl⟩ ?_
  intro j x hj ⟨h1, h2⟩
  rw [Nat.zero_add]
  have hs : ∀ i ≤ j, ∑ k ∈ Finset.range i, M i k * Function.update x j (x j - ∑ k ∈ Finset.range j, M j k * x k) k =
      ∑ k ∈ Finset.range i, M i k * x k := by
    intro i hi
    refine Finset.sum_congr rfl fun k hk => ?_
    rw [Finset.mem_range] at hk
    rw [Function.update_of_ne (by omega)]
  constructor
  · intro i hi
    rw [hs i (by omega)]
    by_cases hij : i = j
    · subst hij
      rw [Function.update_self, h2 i le_rfl]
      ring
    · rw [Function.update_of_ne hij]
      exact h1 i (by omega)
  · intro i hi
    rw [Function.update_of_ne (by omega)]
    exact h2 i (by omega)

/-- backward substitution solves the transposed system -/
theorem bwdUnit_spec (n : ℕ) (M : ℕ → ℕ → K) (b : ℕ → K) :
    (∀ i < n, bwdUnit n M b i + ∑ k ∈ Finset.range (n - 1 - i), M (i + 1 + k) i * bwdUnit n M b (i + 1 + k) = b i) ∧
    (∀ i, n ≤ i → bwdUnit n M b i = b i) := by
  have := forRange_ind (fun t x => (∀ i < n, n - t ≤ i → x i + ∑ k ∈ Finset.range (n - 1 - i), M (i + 1 + k) i * x (i + 1 + k) = b i) ∧
    (∀ i < n - t, x i = b i) ∧ ∀ i, n ≤ i → x i = b i) 0 n (fun t x => Function.update x (n - 1 - t)
    (x (n - 1 - t) - ∑ k ∈ Finset.range t, M (n - t + k) (n - 1 - t) * x (n - t + k))) b
    ⟨fun i hi h => by omega, fun _ _ => rfl, fun _ _ => rfl⟩ ?_
  · exact ⟨fun i hi => this.1 i hi (by omega), this.2.2⟩
  intro t x ht ⟨h1, h2, h3⟩
  rw [Nat.zero_add]
  have hs : ∀ i < n, n - 1 - t ≤ i → ∀ v, ∑ k ∈ Finset.range (n - 1 - i), M (i + 1 + k) i * Function.update x (n - 1 - t) v (i + 1 + k) =
      ∑ k ∈ Finset.range (n - 1 - i), M (i + 1 + k) i * x (i + 1 + k) := by
    intro i hi h v
    refine Finset.sum_congr rfl fun k hk => ?_
    rw [Function.update_of_ne (by omega)]
  refine ⟨?_, ?_, ?_⟩
  · intro i hi hti
    rw [hs i hi (by omega)]
    by_cases hij : i = n - 1 - t
    · have h4 := h2 i (by omega)
      have h5 : n - 1 - i = t := by omega
      have h6 : i + 1 = n - t := by omega
      rw [h5, h6, hij, Function.update_self, ← hij, h4]
      ring
    · rw [Function.update_of_ne hij]
      exact h1 i hi (by omega)
  · intro i hi
    rw [Function.update_of_ne (by omega)]
    exact h2 i (by omega)
  · intro i hi
    rw [Function.update_of_ne (by omega)]
    exact h3 i (by omega)

end

variable {K : Type} [Field K] [LinearOrder K]

theorem ldltStep_lower (n j : ℕ) (st : (ℕ → ℕ → K) × SignMat) (hj : j < n) :
    (∀ i c, c ≤ i → i < n → c ≠ j → (ldltStep n j st).1 i c = st.1 i c) ∧
    (ldltStep n j st).1 j j = st.1 j j - ∑ k ∈ Finset.range j, st.1 j k * st.1 k k * st.1 j k ∧
    (∀ i, j < i → i < n → (ldltStep n j st).1 i j =
      (st.1 i j - ∑ k ∈ Finset.range j, st.1 i k * st.1 k k * st.1 j k) * (1 / (ldltStep n j st).1 j j)) ∧
    (ldltStep n j st).2 = updateSign st.2 ((ldltStep n j st).1 j j) := by
  obtain ⟨A, s⟩ := st
  have hw : ∀ i c, c ≤ i → i < n → ldltWork n j A i c = A i c := by
    intro i c hc hi
    simp only [ldltWork]
    rw [if_neg (by omega)]
  have hwk : ∀ k < j, ldltWork n j A k (n - 1) = A j k * A k k := by
    intro k hk
    simp only [ldltWork]
    rw [if_pos ⟨hk, trivial⟩]
  have hpjj : ldltPivot n j (ldltWork n j A) j j = A j j - ∑ k ∈ Finset.range j, A j k * A k k * A j k := by
    simp only [ldltPivot]
    rw [if_pos ⟨trivial, trivial⟩, hw j j le_rfl hj]
    congr 1
    refine Finset.sum_congr rfl fun k hk => ?_
    rw [Finset.mem_range] at hk
    rw [hwk k hk, hw j k (by omega) hj]
  have hp : ∀ i c, c ≤ i → i < n → ¬ (i = j ∧ c = j) → ldltPivot n j (ldltWork n j A) i c = A i c := by
    intro i c hc hi hne
    simp only [ldltPivot]
    rw [if_neg hne, hw i c hc hi]
  have hpk : ∀ k < j, ldltPivot n j (ldltWork n j A) k (n - 1) = A j k * A k k := by
    intro k hk
    simp only [ldltPivot]
    rw [if_neg (by omega), hwk k hk]
  simp only [ldltStep]
  by_cases hlast : j + 1 = n
  · rw [if_pos hlast]
    refine ⟨fun i c hc hi hne => hp i c hc hi (by omega), hpjj, fun i h1 h2 => by omega, rfl⟩
  · rw [if_neg hlast]
    have hdiag : ldltScale n j (ldltColumn n j (ldltPivot n j (ldltWork n j A))) j j = ldltPivot n j (ldltWork n j A) j j := by
      simp only [ldltScale, ldltColumn]
      simp
    refine ⟨?_, ?_, ?_, ?_⟩
    · intro i c hc hi hne
      simp only [ldltScale, ldltColumn]
      rw [if_neg (by omega), if_neg (by omega), hp i c hc hi (by omega)]
    · simp only
      rw [hdiag, hpjj]
    · intro i h1 h2
      simp only
      rw [hdiag]
      simp only [ldltScale]
      rw [if_pos ⟨h1, h2, trivial⟩]
      have e1 : ldltColumn n j (ldltPivot n j (ldltWork n j A)) j j = ldltPivot n j (ldltWork n j A) j j := by
        simp only [ldltColumn]; simp
      rw [e1]
      congr 1
      simp only [ldltColumn]
      rw [if_pos ⟨h1, h2, trivial⟩, hp i j (by omega) h2 (by omega)]
      congr 1
      refine Finset.sum_congr rfl fun k hk => ?_
      rw [Finset.mem_range] at hk
      rw [hpk k hk, hp i k (by omega) h2 (by omega)]
      ring
    · simp only
      rw [hdiag]

/-- the running sign after meeting the pivots `d 0 … d (j-1)` -/
def signFold (s : SignMat) (d : ℕ → K) : ℕ → SignMat
  | 0 => s
  | j + 1 => updateSign (signFold s d j) (d j)

theorem signFold_congr (s : SignMat) (d d' : ℕ → K) (j : ℕ) (h : ∀ k < j, d k = d' k) : signFold s d j = signFold s d' j := by
  induction j with
  | zero => rfl
  | succ j ih => rw [signFold, signFold, ih fun k hk => h k (by omega), h j (by omega)]

theorem signFold_add (s : SignMat) (d : ℕ → K) (a b : ℕ) : signFold s d (a + b) = signFold (signFold s d a) (fun k => d (a + k)) b := by
  induction b with
  | zero => rfl
  | succ b ih => rw [← Nat.add_assoc, signFold, ih, signFold]

theorem ldltUnblocked_spec (n : ℕ) (A : ℕ → ℕ → K) (s : SignMat) :
    LowerLdl n A (ldltUnblocked n A s).1 ∧
    (2 ≤ n → (ldltUnblocked n A s).2 = signFold s (fun k => (ldltUnblocked n A s).1 k k) n) := by
  unfold ldltUnblocked
  by_cases hn : n ≤ 1
  · rw [if_pos hn]
    refine ⟨⟨?_, ?_⟩, fun h => by omega⟩
    · intro c hc
      obtain rfl : c = 0 := by omega
      simp
    · intro c hc _ i hi hci
      omega
  · rw [if_neg hn]
    have := forRange_ind (fun j (st : (ℕ → ℕ → K) × SignMat) =>
      (∀ c < j, A c c = ∑ k ∈ Finset.range c, st.1 c k * st.1 k k * st.1 c k + st.1 c c) ∧
      (∀ c < j, st.1 c c ≠ 0 → ∀ i < n, c < i → A i c = ∑ k ∈ Finset.range c, st.1 i k * st.1 k k * st.1 c k + st.1 i c * st.1 c c) ∧
      (∀ i c, j ≤ c → c ≤ i → i < n → st.1 i c = A i c) ∧
      st.2 = signFold s (fun k => st.1 k k) j) 0 n (ldltStep n) (A, s)
      ⟨fun c hc => by omega, fun c hc => by omega, fun _ _ _ _ _ => rfl, rfl⟩ ?_
    · exact ⟨⟨this.1, this.2.1⟩, fun _ => this.2.2.2⟩
    intro j st hj ⟨h1, h2, h3, h4⟩
    rw [Nat.zero_add]
    obtain ⟨s1, s2, s3, s4⟩ := ldltStep_lower n j st hj
    generalize ldltStep n j st = st' at *
    have hsum : ∀ i < n, ∀ c ≤ j, c ≤ i → ∑ k ∈ Finset.range c, st'.1 i k * st'.1 k k * st'.1 c k =
        ∑ k ∈ Finset.range c, st.1 i k * st.1 k k * st.1 c k := by
      intro i hi c hc hci
      refine Finset.sum_congr rfl fun k hk => ?_
      rw [Finset.mem_range] at hk
      rw [s1 i k (by omega) hi (by omega), s1 k k le_rfl (by omega) (by omega), s1 c k (by omega) (by omega) (by omega)]
    refine ⟨?_, ?_, ?_, ?_⟩
    · intro c hc
      rw [hsum c (by omega) c (by omega) le_rfl]
      by_cases hcj : c = j
      · subst hcj
        rw [s2, h3 c c le_rfl le_rfl hj]
        ring
      · rw [s1 c c le_rfl (by omega) hcj]
        exact h1 c (by omega)
    · intro c hc hne i hi hci
      rw [hsum i hi c (by omega) (by omega)]
      by_cases hcj : c = j
      · subst hcj
        rw [s3 i hci hi, h3 i c le_rfl (by omega) hi, mul_assoc, one_div, inv_mul_cancel₀ hne]
        ring
      · rw [s1 c c le_rfl (by omega) hcj] at hne ⊢
        rw [s1 i c (by omega) hi hcj]
        exact h2 c (by omega) hne i hi hci
    · intro i c hc hci hi
      rw [s1 i c hci hi (by omega)]
      exact h3 i c (by omega) hci hi
    · rw [s4, signFold, h4]
      congr 1
      exact signFold_congr s _ _ j fun k hk => (s1 k k le_rfl (by omega) (by omega)).symm

theorem denseLdlt_spec (n : ℕ) (A : ℕ → ℕ → K) (s : SignMat) (hp : ∀ k, k + 1 < n → (denseLdlt n A s).1 k k ≠ 0) :
    LowerLdl n A (denseLdlt n A s).1 ∧ (2 ≤ n → (denseLdlt n A s).2 = signFold s (fun k => (denseLdlt n A s).1 k k) n) := by
  induction n using Nat.strong_induction_on generalizing A s with
  | _ n ih =>
    rw [denseLdlt] at hp ⊢
    by_cases hn : n ≤ 128
    · rw [dif_pos hn]
      exact ldltUnblocked_spec n A s
    · rw [dif_neg hn] at hp ⊢
      simp only at hp ⊢
      obtain ⟨bs, hbs⟩ : ∃ bs, bs = (n + 1) / 2 := ⟨_, rfl⟩
      rw [← hbs] at hp ⊢
      have hb1 : 2 ≤ bs := by omega
      have hb2 : 2 ≤ n - bs := by omega
      have hb3 : bs < n := by omega
      have ih0 := ih bs hb3 A s
      generalize hr0 : denseLdlt bs A s = r0 at *
      set A1 := writeDiagBlock 0 bs A r0.1 with hA1
      set A2 := ldltSchur n bs (ldltScaleBlock n bs (ldltCopy n bs (solveRight n bs A1))) with hA2
      have ih1 := ih (n - bs) (by omega) (fun i c => A2 (bs + i) (bs + c)) r0.2
      generalize hr1 : denseLdlt (n - bs) (fun i c => A2 (bs + i) (bs + c)) r0.2 = r1 at *
      set M := writeDiagBlock bs (n - bs) A2 r1.1 with hM
      -- entries of the final matrix
      have m00 : ∀ i < bs, ∀ c < bs, M i c = r0.1 i c := by
        intro i hi c hc
        simp only [hM, hA2, hA1, writeDiagBlock, ldltSchur, ldltScaleBlock, ldltCopy, solveRight]
        rw [if_neg (by omega), if_neg (by omega), if_neg (by omega), if_neg (by omega), if_neg (by omega), if_pos (by omega)]
        rfl
      have a1_00 : ∀ i < bs, ∀ c < bs, A1 i c = r0.1 i c := by
        intro i hi c hc
        simp only [hA1, writeDiagBlock]
        rw [if_pos (by omega)]
        rfl
      have a1_out : ∀ i c, bs ≤ i ∨ bs ≤ c → A1 i c = A i c := by
        intro i c h
        simp only [hA1, writeDiagBlock]
        rw [if_neg (by omega)]
      have m11 : ∀ i < n - bs, ∀ c < n - bs, M (bs + i) (bs + c) = r1.1 i c := by
        intro i hi c hc
        simp only [hM, writeDiagBlock]
        rw [if_pos (by omega), Nat.add_sub_cancel_left, Nat.add_sub_cancel_left]
      have m10 : ∀ i, bs ≤ i → i < n → ∀ c < bs, M i c = fwdUnit bs A1 (fun c => A1 i c) c * (1 / r0.1 c c) := by
        intro i hi hin c hc
        simp only [hM, hA2, writeDiagBlock, ldltSchur, ldltScaleBlock, ldltCopy, solveRight]
        rw [if_neg (by omega), if_neg (by omega), if_pos (by omega), if_neg (by omega), if_pos (by omega), if_neg (by omega),
          if_neg (by omega), a1_00 c hc c hc]
      have a2_11 : ∀ i, bs ≤ i → i < n → ∀ c, bs ≤ c → c ≤ i → A2 i c = A i c - ∑ k ∈ Finset.range bs, M i k *
          (fwdUnit bs A1 (fun c' => A1 c c') k) := by
        intro i hi hin c hc hci
        have : A2 i c = A i c - ∑ k ∈ Finset.range bs, ldltScaleBlock n bs (ldltCopy n bs (solveRight n bs A1)) i k *
            ldltScaleBlock n bs (ldltCopy n bs (solveRight n bs A1)) k c := by
          simp only [hA2, ldltSchur]
          rw [if_pos ⟨hc, hci, hin⟩]
          congr 1
          simp only [ldltScaleBlock, ldltCopy, solveRight]
          rw [if_neg (by omega), if_neg (by omega), if_neg (by omega), a1_out i c (Or.inl hi)]
        rw [this]
        congr 1
        refine Finset.sum_congr rfl fun k hk => ?_
        rw [Finset.mem_range] at hk
        congr 1
        · rw [m10 i hi hin k hk]
          simp only [ldltScaleBlock, ldltCopy, solveRight]
          rw [if_pos (by omega), if_neg (by omega), if_pos (by omega), if_neg (by omega), if_neg (by omega), a1_00 k hk k hk]
        · simp only [ldltScaleBlock, ldltCopy, solveRight]
          rw [if_neg (by omega), if_pos (by omega), if_pos (by omega)]
      have hpiv : ∀ k < bs, r0.1 k k ≠ 0 := by
        intro k hk
        have := hp k (by omega)
        rwa [m00 k hk k hk] at this
      obtain ⟨g0, g0s⟩ := ih0 (fun k hk => hpiv k (by omega))
      obtain ⟨g1, g1s⟩ := ih1 (fun k hk => by
        have := hp (bs + k) (by omega)
        rwa [m11 k (by omega) k (by omega)] at this)
      have hfw : ∀ i, bs ≤ i → i < n → ∀ c < bs, fwdUnit bs A1 (fun c => A1 i c) c = M i c * M c c := by
        intro i hi hin c hc
        rw [m10 i hi hin c hc, m00 c hc c hc, mul_assoc, one_div, inv_mul_cancel₀ (hpiv c hc), mul_one]
      have hsplit : n = bs + (n - bs) := by omega
      constructor
      · have : LowerLdl (bs + (n - bs)) A M := by
          refine LowerLdl.append ?_ ?_ ?_ ?_
          · exact g0.congr (fun _ _ _ _ => rfl) fun i hi c hc => m00 i hi c (by omega)
          · intro k hk; rw [m00 k hk k hk]; exact hpiv k hk
          · intro i hi c hc
            have := (fwdUnit_spec bs A1 fun c => A1 (bs + i) c).1 c hc
            rw [a1_out _ _ (Or.inl (by omega)), hfw (bs + i) (by omega) (by omega) c hc] at this
            rw [← this]
            congr 1
            refine Finset.sum_congr rfl fun k hk => ?_
            rw [Finset.mem_range] at hk
            rw [hfw (bs + i) (by omega) (by omega) k (by omega), a1_00 c hc k (by omega), m00 c hc k (by omega)]
            ring
          · refine g1.congr ?_ fun i hi c hc => m11 i hi c (by omega)
            intro i hi c hc
            rw [a2_11 (bs + i) (by omega) (by omega) (bs + c) (by omega) (by omega)]
            congr 1
            refine Finset.sum_congr rfl fun k hk => ?_
            rw [Finset.mem_range] at hk
            rw [hfw (bs + c) (by omega) (by omega) k hk]
            ring
        rw [← hsplit] at this
        exact this
      · intro _
        have : signFold s (fun k => M k k) (bs + (n - bs)) = r1.2 := by
          rw [signFold_add, g1s hb2, g0s hb1]
          rw [signFold_congr s (fun k => M k k) (fun k => r0.1 k k) bs fun k hk => m00 k hk k hk]
          exact signFold_congr _ _ _ _ fun k hk => m11 k hk k hk
        rw [← this, ← hsplit]

end ProxNLP
