import Verif.Lemmas.BlockKind
import Mathlib.Algebra.Order.BigOperators.Group.Finset
import Mathlib.Tactic.FieldSimp
import Mathlib.Tactic.NormNum
import Mathlib.Algebra.Order.Field.Rat

/-! Property theorems for C50, C51, C67, C75: block-kind algebra, symbolic factorisation, default structure, count of
nonzeros. -/

set_option linter.unusedSectionVars false
namespace ProxNLP

open BlockKind Spec

variable {K : Type} [Field K]

/-! ### C50 -/

/-- **C50, transpose**. -/
theorem C50_transpose (k : BlockKind) (m n : ℕ) (A : ℕ → ℕ → K) (h : HasKind k m n A) : HasKind k.trans n m fun r c => A c r := by
  intro r hr c hc hna
  refine h c hc r hr fun ha => hna ?_
  cases k <;> simp_all [Allows, BlockKind.trans]

/-- **C50, sum**. -/
theorem C50_add (a b : BlockKind) (m n : ℕ) (A B : ℕ → ℕ → K) (hA : HasKind a m n A) (hB : HasKind b m n B) :
    HasKind (add a b) m n fun r c => A r c + B r c := by
  intro r hr c hc hna
  have h1 : A r c = 0 := hA r hr c hc fun ha => hna (by cases a <;> cases b <;> simp_all [Allows, add, toNat])
  have h2 : B r c = 0 := hB r hr c hc fun ha => hna (by cases a <;> cases b <;> simp_all [Allows, add, toNat])
  simp only [h1, h2, add_zero]

/-- **C50, product**: also with a diagonal matrix in between. -/
theorem C50_mul (a b : BlockKind) (m l n : ℕ) (A B : ℕ → ℕ → K) (d : ℕ → K) (hA : HasKind a m l A) (hB : HasKind b l n B) :
    HasKind (mul a b) m n fun r c => ∑ p ∈ Finset.range l, A r p * d p * B p c := by
  intro r hr c hc hna
  refine Finset.sum_eq_zero fun p hp => ?_
  rw [Finset.mem_range] at hp
  by_cases h1 : Allows a r p
  · by_cases h2 : Allows b p c
    · exact absurd (by cases a <;> cases b <;> simp_all [Allows, mul, add, toNat] <;> omega) hna
    · rw [hB p hp c hc h2, mul_zero]
  · rw [hA r hr p hp h1, zero_mul, zero_mul]

/-- **C50, algebra**: `add` is commutative, associative, idempotent with unit `zero`; `mul` is commutative with unit `diag` and
absorbing `zero`; transposition is an involution and distributes over both. -/
theorem C50_laws (a b c : BlockKind) :
    add a b = add b a ∧ add (add a b) c = add a (add b c) ∧ add a a = a ∧ add a zero = a ∧ mul a b = mul b a ∧
    mul (mul a b) c = mul a (mul b c) ∧ mul a diag = a ∧ mul a zero = zero ∧ trans (trans a) = a ∧
    trans (add a b) = add (trans a) (trans b) ∧ trans (mul a b) = mul (trans b) (trans a) := by
  cases a <;> cases b <;> cases c <;> decide

/-- **C50, order**: the kind of a sum is the least kind allowing all positions of both; both operations are monotone. -/
theorem C50_least (a b : BlockKind) :
    (∀ r c, Allows a r c ∨ Allows b r c → Allows (add a b) r c) ∧
    (∀ k : BlockKind, (∀ r c, Allows a r c ∨ Allows b r c → Allows k r c) → ∀ r c, Allows (add a b) r c → Allows k r c) ∧
    (∀ a' : BlockKind, (∀ r c, Allows a r c → Allows a' r c) →
      (∀ r c, Allows (add a b) r c → Allows (add a' b) r c) ∧ (∀ r c, Allows (mul a b) r c → Allows (mul a' b) r c)) := by
  refine ⟨?_, ?_, ?_⟩
  · intro r c
    cases a <;> cases b <;> simp [Allows, add, toNat] <;> omega
  · intro k hk r c
    have h00 := hk 0 0
    have h01 := hk 0 1
    have h10 := hk 1 0
    clear hk
    cases a <;> cases b <;> cases k <;> simp_all [Allows, add, toNat] <;> omega
  · intro a' ha
    have h00 := ha 0 0
    have h01 := ha 0 1
    have h10 := ha 1 0
    clear ha
    constructor <;> intro r c <;> cases a <;> cases a' <;> cases b <;> simp_all [Allows, add, mul, toNat] <;> omega

/-- C50 is not vacuous: a lower and an upper triangular block with nonzero product entries. -/
example : HasKind triL 2 2 (fun r c => if c ≤ r then (1 : ℚ) else 0) ∧ mul triL triU = dense ∧ add diag triL = triL := by
  refine ⟨?_, by decide, by decide⟩
  intro r _ c _ h
  simp only [Allows] at h
  exact if_neg h

/-! ### C51 -/

/-- **C51, success**: the analysis succeeds whenever the diagonal blocks are diagonal or dense. -/
theorem C51_succeeds (n : ℕ) (Ks : ℕ → ℕ → BlockKind) (h : ∀ i < n, Ks i i = diag ∨ Ks i i = dense) : (llt n Ks).1 = true := by
  induction n generalizing Ks with
  | zero => rfl
  | succ n ih =>
    rw [llt_succ, if_pos (by rcases h 0 (by omega) with h | h <;> simp [h])]
    apply ih
    intro i hi
    simp only [lltUpdateSpec]
    rw [if_pos (by omega), if_pos (le_refl _)]
    have h1 : colSpec (n + 1) Ks (i + 1) (i + 1) = Ks (i + 1) (i + 1) := by
      simp [colSpec]
    rw [h1]
    have h2 := h (i + 1) (by omega)
    generalize colSpec (n + 1) Ks (i + 1) 0 = k
    rcases h2 with h2 | h2 <;> rw [h2] <;> cases k <;> decide

theorem allows_mono_self {k k' : BlockKind} {m n : ℕ} {A : ℕ → ℕ → K} (h : HasKind k m n A)
    (hk : ∀ r c, Allows k r c → Allows k' r c) : HasKind k' m n A :=
  fun r hr c hc hna => h r hr c hc fun ha => hna (hk r c ha)

theorem segOffset_succ' (lens : ℕ → ℕ) (i : ℕ) : segOffset lens (i + 1) = lens 0 + segOffset (fun k => lens (k + 1)) i := by
  rw [segOffset, Finset.sum_range_succ', segOffset, add_comm]

theorem segOffset_zero (lens : ℕ → ℕ) : segOffset lens 0 = 0 := rfl

theorem segOffset_mono (lens : ℕ → ℕ) {i j : ℕ} (h : i ≤ j) : segOffset lens i ≤ segOffset lens j :=
  Finset.sum_le_sum_of_subset (Finset.range_mono h)

theorem segOffset_lt (lens : ℕ → ℕ) {i n r : ℕ} (hi : i < n) (hr : r < lens i) : segOffset lens i + r < segOffset lens n := by
  have h1 : segOffset lens (i + 1) ≤ segOffset lens n := segOffset_mono lens (by omega)
  have h2 : segOffset lens (i + 1) = segOffset lens i + lens i := Finset.sum_range_succ _ _
  omega

/-- the Schur complement after the first `b` columns -/
def schur (b : ℕ) (A L : ℕ → ℕ → K) (d : ℕ → K) : ℕ → ℕ → K := fun i j =>
  A (b + i) (b + j) - ∑ k ∈ Finset.range b, L (b + i) k * d k * L (b + j) k

theorem Spec.IsLDL.schur {b M : ℕ} {A L : ℕ → ℕ → K} {d : ℕ → K} (h : IsLDL (b + M) A L d) :
    IsLDL M (ProxNLP.schur b A L d) (fun i j => L (b + i) (b + j)) (fun k => d (b + k)) where
  unit i hi := h.unit _ (by omega)
  lower i hi j hj hij := h.lower _ (by omega) _ (by omega) (by omega)
  pivots k hk := h.pivots _ (by omega)
  eq i hi j hj := by
    unfold ProxNLP.schur
    rw [h.eq _ (by omega) _ (by omega), Finset.sum_range_add]
    ring

/-- column by column: an entry of `A` left of or on the diagonal in terms of the factor -/
theorem Spec.IsLDL.entry {N : ℕ} {A L : ℕ → ℕ → K} {d : ℕ → K} (h : IsLDL N A L d) (i j : ℕ) (hi : i < N) (hj : j < N) :
    A i j = ∑ k ∈ Finset.range j, L i k * d k * L j k + L i j * d j := by
  have h1 : ∑ k ∈ Finset.range N, L i k * d k * L j k = ∑ k ∈ Finset.range (j + 1), L i k * d k * L j k := by
    symm
    apply Finset.sum_subset (Finset.range_mono (by omega))
    intro k hk hk'
    rw [Finset.mem_range] at hk hk'
    rw [h.lower j hj k hk (by omega), mul_zero]
  rw [h.eq i hi j hj, h1, Finset.sum_range_succ, h.unit j hj, mul_one]

theorem Spec.IsLDL.symm {N : ℕ} {A L : ℕ → ℕ → K} {d : ℕ → K} (h : IsLDL N A L d) (i j : ℕ) (hi : i < N) (hj : j < N) : A i j = A j i := by
  rw [h.eq i hi j hj, h.eq j hj i hi]
  exact Finset.sum_congr rfl fun k _ => by ring

/-- below a diagonal pivot block: the factor is the identity there -/
theorem ldl_diag_block {N b : ℕ} {A L : ℕ → ℕ → K} {d : ℕ → K} (h : IsLDL N A L d) (hb : b ≤ N) (hd : HasKind diag b b A) :
    ∀ j < b, ∀ i < b, j < i → L i j = 0 := by
  intro j
  induction j using Nat.strong_induction_on with
  | _ j ih =>
    intro hj i hi hij
    have h1 := h.entry i j (by omega) (by omega)
    rw [hd i hi j hj (by simp only [Allows]; omega)] at h1
    rw [Finset.sum_eq_zero (fun k hk => by
      rw [Finset.mem_range] at hk
      rw [ih k hk (by omega) i hi (by omega), zero_mul, zero_mul]), zero_add] at h1
    exact (mul_eq_zero.1 h1.symm).resolve_right (h.pivots j (by omega))

/-- row `o + r` of the factor in the first `b` columns, pivot block diagonal -/
theorem ldl_col_diag {N b o m : ℕ} {A L : ℕ → ℕ → K} {d : ℕ → K} (h : IsLDL N A L d) (hbo : b ≤ o) (hoN : o + m ≤ N)
    (hd : HasKind diag b b A) (k : BlockKind) (hk : HasKind k m b fun r c => A (o + r) c) :
    HasKind k m b fun r c => L (o + r) c := by
  intro r hr c hc hna
  have h1 := h.entry (o + r) c (by omega) (by omega)
  have h2 := hk r hr c hc hna
  simp only at h2
  rw [h2, Finset.sum_eq_zero (fun p hp => by
    rw [Finset.mem_range] at hp
    rw [ldl_diag_block h (by omega) hd p (by omega) c hc hp, mul_zero]), zero_add] at h1
  exact (mul_eq_zero.1 h1.symm).resolve_right (h.pivots c (by omega))

/-- the same with a dense pivot block -/
theorem ldl_col_dense {N b o m : ℕ} {A L : ℕ → ℕ → K} {d : ℕ → K} (h : IsLDL N A L d) (hbo : b ≤ o) (hoN : o + m ≤ N)
    (k : BlockKind) (hk : HasKind k m b fun r c => A (o + r) c) :
    HasKind (lltBelowDense k) m b fun r c => L (o + r) c := by
  have key : HasKind triU m b (fun r c => A (o + r) c) → HasKind triU m b fun r c => L (o + r) c := by
    intro hu r hr c
    induction c using Nat.strong_induction_on with
    | _ c ih =>
      intro hc hna
      have h1 := h.entry (o + r) c (by omega) (by omega)
      have h2 := hu r hr c hc hna
      simp only at h2
      simp only [Allows, not_le] at hna
      rw [h2, Finset.sum_eq_zero (fun p hp => by
        rw [Finset.mem_range] at hp
        have := ih p hp (by omega) (by simp only [Allows]; omega)
        simp only at this
        rw [this, zero_mul, zero_mul]), zero_add] at h1
      exact (mul_eq_zero.1 h1.symm).resolve_right (h.pivots c (by omega))
  cases k with
  | zero => exact key (allows_mono_self hk (by simp [Allows]))
  | diag => exact key (allows_mono_self hk (by simp only [Allows]; omega))
  | triU => exact key hk
  | triL => exact fun r _ c _ hna => absurd trivial hna
  | dense => exact fun r _ c _ hna => absurd trivial hna

/-- **C51**: if the symbolic factorisation succeeds on a pattern, the unit lower triangular factor of every matrix with that
pattern that has an `L D L^T` factorisation has the computed pattern. -/
theorem C51_fill_in (n : ℕ) (lens : ℕ → ℕ) (Ks : ℕ → ℕ → BlockKind) (A L : ℕ → ℕ → K) (d : ℕ → K)
    (hs : (llt n Ks).1 = true) (hA : HasPattern n lens Ks A) (hL : IsLDL (segOffset lens n) A L d) :
    HasPattern n lens (llt n Ks).2 L := by
  induction n generalizing lens Ks A L d with
  | zero => intro i hi; omega
  | succ n ih =>
    rw [llt_succ] at hs ⊢
    by_cases hp : Ks 0 0 = dense ∨ Ks 0 0 = diag
    swap
    · rw [if_neg hp] at hs; simp at hs
    rw [if_pos hp] at hs ⊢
    have hN := segOffset_succ' lens n
    rw [hN] at hL
    -- column 0 of the factor
    have hcol : ∀ i, i < n → HasKind (colSpec (n + 1) Ks (i + 1) 0) (lens (i + 1)) (lens 0) fun r c =>
        L (lens 0 + segOffset (fun k => lens (k + 1)) i + r) c := by
      intro i hi
      have hlt : segOffset (fun k => lens (k + 1)) i + lens (i + 1) ≤ segOffset (fun k => lens (k + 1)) n := by
        have h1 : segOffset (fun k => lens (k + 1)) (i + 1) ≤ segOffset (fun k => lens (k + 1)) n := segOffset_mono _ (by omega)
        have h2 : segOffset (fun k => lens (k + 1)) (i + 1) = segOffset (fun k => lens (k + 1)) i + lens (i + 1) := Finset.sum_range_succ _ _
        omega
      have hAi : HasKind (Ks (i + 1) 0) (lens (i + 1)) (lens 0) fun r c => A (lens 0 + segOffset (fun k => lens (k + 1)) i + r) c := by
        have := hA (i + 1) (by omega) 0 (by omega)
        rw [segOffset_succ', segOffset_zero] at this
        simpa using this
      by_cases hd : Ks 0 0 = dense
      · have : colSpec (n + 1) Ks (i + 1) 0 = lltBelowDense (Ks (i + 1) 0) := by
          simp [colSpec, hd, hi]
        rw [this]
        exact ldl_col_dense hL (by omega) (by omega) _ hAi
      · have : colSpec (n + 1) Ks (i + 1) 0 = Ks (i + 1) 0 := by
          simp [colSpec, hd]
        rw [this]
        refine ldl_col_diag hL (by omega) (by omega) ?_ _ hAi
        have := hA 0 (by omega) 0 (by omega)
        rw [segOffset_zero, hp.resolve_left hd] at this
        simpa using this
    -- the Schur complement has the updated pattern
    have hS := hL.schur
    have hup : ∀ i j, i < n → j < n → i ≤ j →
        HasKind (add (Ks (i + 1) (j + 1)) (mul (colSpec (n + 1) Ks (i + 1) 0) (trans (colSpec (n + 1) Ks (j + 1) 0)))) (lens (i + 1)) (lens (j + 1))
          fun r c => schur (lens 0) A L d (segOffset (fun k => lens (k + 1)) i + r) (segOffset (fun k => lens (k + 1)) j + c) := by
      intro i j hi hj hij
      have h1 := hA (i + 1) (by omega) (j + 1) (by omega)
      have h2 := C50_mul _ _ _ _ _ _ _ (fun k => - d k) (hcol i hi) (C50_transpose _ _ _ _ (hcol j hj))
      have h3 := C50_add _ _ _ _ _ _ h1 h2
      intro r hr c hc hna
      have h4 := h3 r hr c hc hna
      rw [segOffset_succ', segOffset_succ'] at h4
      rw [← h4]
      simp only [schur, sub_eq_add_neg, ← Finset.sum_neg_distrib, add_assoc]
      congr 1
      exact Finset.sum_congr rfl fun k _ => by ring
    have hSP : HasPattern n (fun k => lens (k + 1)) (fun i j => lltUpdateSpec (n + 1) (colSpec (n + 1) Ks) (i + 1) (j + 1))
        (schur (lens 0) A L d) := by
      intro i hi j hj
      simp only [lltUpdateSpec]
      rw [if_pos (by omega)]
      have hc : ∀ a b, colSpec (n + 1) Ks (a + 1) (b + 1) = Ks (a + 1) (b + 1) := by
        intro a b; simp [colSpec]
      by_cases hij : i ≤ j
      · rw [if_pos (by omega), hc]
        exact hup i j hi hj hij
      · rw [if_neg (by omega), hc]
        have h1 := C50_transpose _ _ _ _ (hup j i hj hi (by omega))
        intro r hr c hcc hna
        have h2 := h1 r hr c hcc hna
        simp only at h2
        rw [← h2]
        exact hS.symm _ _ (segOffset_lt (fun k => lens (k + 1)) hi hr) (segOffset_lt (fun k => lens (k + 1)) hj hcc)
    have hrec := ih (fun k => lens (k + 1)) _ _ _ _ hs hSP hS
    -- assemble
    intro i hi j hj
    by_cases hj0 : j = 0
    · subst hj0
      simp only
      rw [if_neg (by omega), segOffset_zero]
      cases i with
      | zero =>
        rw [segOffset_zero]
        intro r hr c hc hna
        simp only [Nat.zero_add]
        rcases hp with hp | hp
        · have : colSpec (n + 1) Ks 0 0 = triL := by simp [colSpec, hp]
          rw [this] at hna
          simp only [Allows, not_le] at hna
          exact hL.lower r (by omega) c (by omega) hna
        · have : colSpec (n + 1) Ks 0 0 = diag := by simp [colSpec, hp]
          rw [this] at hna
          simp only [Allows] at hna
          rcases Nat.lt_or_gt_of_ne hna with hlt | hgt
          · exact hL.lower r (by omega) c (by omega) hlt
          · refine ldl_diag_block hL (b := lens 0) (by omega) ?_ c hc r hr hgt
            have := hA 0 (by omega) 0 (by omega)
            rw [segOffset_zero, hp] at this
            simpa using this
      | succ i =>
        rw [segOffset_succ']
        intro r hr c hc hna
        have := hcol i (by omega) r hr c hc hna
        simpa using this
    · by_cases hi0 : i = 0
      · subst hi0
        intro r hr c hc _
        have h1 : lens 0 ≤ segOffset lens j := by
          have := segOffset_mono lens (i := 1) (j := j) (by omega)
          simpa [segOffset] using this
        have h2 := segOffset_lt lens hj hc
        rw [segOffset_zero]
        simp only [Nat.zero_add]
        exact hL.lower r (by omega) _ (by omega) (by omega)
      · simp only
        rw [if_pos (by omega)]
        obtain ⟨i, rfl⟩ : ∃ a, i = a + 1 := ⟨i - 1, by omega⟩
        obtain ⟨j, rfl⟩ : ∃ a, j = a + 1 := ⟨j - 1, by omega⟩
        rw [segOffset_succ', segOffset_succ']
        intro r hr c hc hna
        have := hrec i (by omega) j (by omega) r hr c hc (by simpa using hna)
        simpa [add_assoc] using this

/-- **C51, failure**: the analysis fails only on patterns with a zero or triangular diagonal block; and always when the first
diagonal block is one. -/
theorem C51_failure (n : ℕ) (Ks : ℕ → ℕ → BlockKind) :
    ((llt n Ks).1 = false → ∃ i < n, Ks i i = zero ∨ Ks i i = triL ∨ Ks i i = triU) ∧
    (0 < n → (Ks 0 0 = zero ∨ Ks 0 0 = triL ∨ Ks 0 0 = triU) → (llt n Ks).1 = false) := by
  constructor
  · intro h
    by_contra hc
    push Not at hc
    have := C51_succeeds n Ks fun i hi => by
      obtain ⟨h1, h2, h3⟩ := hc i hi
      cases hk : Ks i i <;> simp_all
    rw [this] at h
    simp at h
  · intro hn hk
    obtain ⟨m, rfl⟩ : ∃ m, n = m + 1 := ⟨n - 1, by omega⟩
    rw [llt_succ, if_neg (by rcases hk with h | h | h <;> simp [h])]

/-- On success the pattern is block lower triangular with triangular or diagonal pivots. -/
theorem C51_shape (n : ℕ) (Ks : ℕ → ℕ → BlockKind) (hs : (llt n Ks).1 = true) :
    (∀ i < n, ∀ j < n, i < j → (llt n Ks).2 i j = zero) ∧ ∀ i < n, (llt n Ks).2 i i = diag ∨ (llt n Ks).2 i i = triL := by
  induction n generalizing Ks with
  | zero => exact ⟨fun i hi => by omega, fun i hi => by omega⟩
  | succ n ih =>
    rw [llt_succ] at hs ⊢
    by_cases hp : Ks 0 0 = dense ∨ Ks 0 0 = diag
    swap
    · rw [if_neg hp] at hs; simp at hs
    rw [if_pos hp] at hs ⊢
    obtain ⟨h1, h2⟩ := ih _ hs
    constructor
    · intro i hi j hj hij
      simp only
      by_cases h0 : i = 0
      · subst h0
        rw [if_neg (by omega), colSpec, if_pos (by omega)]
      · rw [if_pos (by omega)]
        exact h1 _ (by omega) _ (by omega) (by omega)
    · intro i hi
      simp only
      by_cases h0 : i = 0
      · subst h0
        rw [if_neg (by omega), colSpec, if_neg (by omega)]
        rcases hp with hp | hp <;> simp [hp]
      · rw [if_pos (by omega)]
        exact h2 _ (by omega)

namespace Demo
/-- Dense first block, diagonal second block, coupled by a dense block -/
def kktKinds : ℕ → ℕ → BlockKind := fun i j => if i = 1 ∧ j = 1 then diag else dense
/-- a 3 × 3 KKT matrix with one constraint, `L D L^T` with `L = [1; 1 1; 1 0 1]`, `D = (1, 1, -2)` -/
def kktL : ℕ → ℕ → ℚ := fun i j => if i = j then 1 else if j = 0 ∧ i < 3 then 1 else 0
def kktD : ℕ → ℚ := fun k => if k = 2 then -2 else 1
def kktA : ℕ → ℕ → ℚ := fun i j => ∑ k ∈ Finset.range 3, kktL i k * kktD k * kktL j k
end Demo

/-- C51 is not vacuous: block sizes (2, 1), the factor is predicted. -/
example : (llt 2 Demo.kktKinds).1 = true ∧ HasPattern 2 (fun i => if i = 0 then 2 else 1) Demo.kktKinds Demo.kktA ∧
    IsLDL (segOffset (fun i => if i = 0 then 2 else 1) 2) Demo.kktA Demo.kktL Demo.kktD ∧ (llt 2 Demo.kktKinds).2 1 0 = dense := by
  refine ⟨by decide, ?_, ?_, by decide⟩
  · intro i hi j hj r hr c hc hna
    have : (i = 1 ∧ j = 1) := by
      by_contra h
      exact hna (by simp [Demo.kktKinds, h, Allows])
    obtain ⟨rfl, rfl⟩ := this
    simp only [Demo.kktKinds, and_self, if_true, Allows] at hna
    simp at hr hc
    omega
  · have h3 : segOffset (fun i => if i = 0 then 2 else 1) 2 = 3 := by decide
    rw [h3]
    exact ⟨by decide +kernel, by decide +kernel, by
      intro k hk
      unfold Demo.kktD
      split <;> norm_num, fun i _ j _ => rfl⟩

/-- C51: the failure case is met. -/
example : (llt 1 fun _ _ => triL).1 = false := by decide

/-! ### C67 -/

theorem defaultKinds_eq (g : ℕ → ℕ → BlockKind) (primal dual : List ℕ) (i j : ℕ) :
    (defaultStructure g primal dual).kinds i j =
      if i < primal.length + dual.length ∧ j < primal.length + dual.length then
        if i < primal.length ∨ j < primal.length then dense else if i = j then diag else zero
      else g i j := by
  have inner1 : ∀ (np i : ℕ) (Ks : ℕ → ℕ → BlockKind), forRange 0 np (fun j K => setKind K i j dense) Ks =
      fun a b => if a = i ∧ b < np then dense else Ks a b := by
    intro np i Ks
    refine forRange_ind (fun k S => S = fun a b => if a = i ∧ b < k then dense else Ks a b) 0 np _ Ks ?_ ?_
    · funext a b; grind
    · rintro k S hk rfl; funext a b; simp only [setKind]; grind
  have outer1 : ∀ (np : ℕ) (Ks : ℕ → ℕ → BlockKind), forRange 0 np (fun i K => forRange 0 np (fun j K => setKind K i j dense) K) Ks =
      fun a b => if a < np ∧ b < np then dense else Ks a b := by
    intro np Ks
    refine forRange_ind (fun k S => S = fun a b => if a < k ∧ b < np then dense else Ks a b) 0 np _ Ks ?_ ?_
    · funext a b; grind
    · rintro k S hk rfl; rw [inner1]; funext a b; grind
  have inner2 : ∀ (np m i : ℕ) (Ks : ℕ → ℕ → BlockKind), forRange np m (fun j K => setKind (setKind K i j dense) j i dense) Ks =
      fun a b => if (a = i ∧ np ≤ b ∧ b < np + m) ∨ (b = i ∧ np ≤ a ∧ a < np + m) then dense else Ks a b := by
    intro np m i Ks
    refine forRange_ind (fun k S => S = fun a b => if (a = i ∧ np ≤ b ∧ b < np + k) ∨ (b = i ∧ np ≤ a ∧ a < np + k) then dense else Ks a b) np m _ Ks ?_ ?_
    · funext a b; grind
    · rintro k S hk rfl; funext a b; simp only [setKind]; grind
  have outer2 : ∀ (np m : ℕ) (Ks : ℕ → ℕ → BlockKind), forRange 0 np (fun i K => forRange np m (fun j K => setKind (setKind K i j dense) j i dense) K) Ks =
      fun a b => if (a < np ∧ np ≤ b ∧ b < np + m) ∨ (b < np ∧ np ≤ a ∧ a < np + m) then dense else Ks a b := by
    intro np m Ks
    refine forRange_ind (fun k S => S = fun a b => if (a < k ∧ np ≤ b ∧ b < np + m) ∨ (b < k ∧ np ≤ a ∧ a < np + m) then dense else Ks a b) 0 np _ Ks ?_ ?_
    · funext a b; grind
    · rintro k S hk rfl; rw [inner2]; funext a b; grind
  have inner3 : ∀ (np m i : ℕ) (Ks : ℕ → ℕ → BlockKind), forRange np m (fun j K => if i ≠ j then setKind K i j zero else K) Ks =
      fun a b => if a = i ∧ b ≠ i ∧ np ≤ b ∧ b < np + m then zero else Ks a b := by
    intro np m i Ks
    refine forRange_ind (fun k S => S = fun a b => if a = i ∧ b ≠ i ∧ np ≤ b ∧ b < np + k then zero else Ks a b) np m _ Ks ?_ ?_
    · funext a b; grind
    · rintro k S hk rfl
      by_cases hik : i = np + k
      · rw [if_neg (by simpa using hik)]; funext a b; grind
      · rw [if_pos hik]; funext a b; simp only [setKind]; grind
  have outer3 : ∀ (np m : ℕ) (Ks : ℕ → ℕ → BlockKind), forRange np m (fun i K =>
      forRange np m (fun j K => if i ≠ j then setKind K i j zero else K) (setKind K i i diag)) Ks =
      fun a b => if np ≤ a ∧ a < np + m ∧ np ≤ b ∧ b < np + m then (if a = b then diag else zero) else Ks a b := by
    intro np m Ks
    refine forRange_ind (fun k S => S = fun a b => if np ≤ a ∧ a < np + k ∧ np ≤ b ∧ b < np + m then (if a = b then diag else zero) else Ks a b) np m _ Ks ?_ ?_
    · funext a b; grind
    · rintro k S hk rfl; rw [inner3]; funext a b; simp only [setKind]; grind
  simp only [defaultStructure]
  rw [outer1, outer2, outer3]
  grind

/-- **C67, pattern**: dense primal-primal and primal-dual blocks, diagonal dual blocks, zero blocks between different duals;
the pattern is symmetric, whatever the freshly allocated array contained. -/
theorem C67_default_pattern (g : ℕ → ℕ → BlockKind) (primal dual : List ℕ) :
    (∀ i j, i < primal.length → j < primal.length + dual.length → (defaultStructure g primal dual).kinds i j = dense) ∧
    (∀ i j, i < primal.length + dual.length → j < primal.length → (defaultStructure g primal dual).kinds i j = dense) ∧
    (∀ i, i < dual.length → (defaultStructure g primal dual).kinds (primal.length + i) (primal.length + i) = diag) ∧
    (∀ i j, i < dual.length → j < dual.length → i ≠ j →
      (defaultStructure g primal dual).kinds (primal.length + i) (primal.length + j) = zero) ∧
    (∀ i j, i < primal.length + dual.length → j < primal.length + dual.length →
      (defaultStructure g primal dual).kinds j i = trans ((defaultStructure g primal dual).kinds i j)) := by
  refine ⟨?_, ?_, ?_, ?_, ?_⟩
  · intro i j hi hj
    rw [defaultKinds_eq, if_pos (by omega), if_pos (by omega)]
  · intro i j hi hj
    rw [defaultKinds_eq, if_pos (by omega), if_pos (by omega)]
  · intro i hi
    rw [defaultKinds_eq, if_pos (by omega), if_neg (by omega), if_pos rfl]
  · intro i j hi hj hij
    rw [defaultKinds_eq, if_pos (by omega), if_neg (by omega), if_neg (by omega)]
  · intro i j hi hj
    rw [defaultKinds_eq, if_pos ⟨hj, hi⟩, defaultKinds_eq, if_pos (c := i < _ ∧ j < _) ⟨hi, hj⟩]
    by_cases h : i < primal.length ∨ j < primal.length
    · rw [if_pos h, if_pos h.symm]; rfl
    · rw [if_neg h, if_neg (fun h' => h (Or.symm h'))]
      by_cases hij : i = j
      · rw [if_pos hij, if_pos hij.symm]; rfl
      · rw [if_neg hij, if_neg (Ne.symm hij)]; rfl

theorem foldl_add_list (l : List ℕ) (c : ℕ) : l.foldl (· + ·) c = c + l.sum := by
  induction l generalizing c with
  | nil => simp
  | cons a l ih => rw [List.foldl_cons, ih]; simp [add_assoc]

theorem sum_getD (l : List ℕ) : ∑ k ∈ Finset.range l.length, l.getD k 0 = l.sum := by
  induction l with
  | nil => rfl
  | cons a l ih =>
    rw [List.length_cons, Finset.sum_range_succ', List.sum_cons, ← ih]
    simp [add_comm]

theorem segOffset_default (g : ℕ → ℕ → BlockKind) (primal dual : List ℕ) (i : ℕ) (hi : i ≤ dual.length) :
    segOffset (defaultStructure g primal dual).lens (primal.length + i) = primal.sum + ∑ k ∈ Finset.range i, dual.getD k 0 := by
  unfold segOffset
  rw [Finset.sum_range_add]
  congr 1
  · rw [← sum_getD]
    refine Finset.sum_congr rfl fun k hk => ?_
    rw [Finset.mem_range] at hk
    simp [defaultStructure, hk]
  · refine Finset.sum_congr rfl fun k _ => ?_
    simp [defaultStructure]

/-- **C67, sizes**: the block sizes are the given ones, in order, and add up to the dimension of the KKT matrix. -/
theorem C67_sizes (g : ℕ → ℕ → BlockKind) (primal dual : List ℕ) :
    (∀ i, i < primal.length → (defaultStructure g primal dual).lens i = primal.getD i 0) ∧
    (∀ i, (defaultStructure g primal dual).lens (primal.length + i) = dual.getD i 0) ∧
    (defaultStructure g primal dual).n = primal.length + dual.length ∧
    segOffset (defaultStructure g primal dual).lens (defaultStructure g primal dual).n = primal.sum + dual.sum ∧
    totalDim primal dual = primal.sum + dual.sum := by
  refine ⟨fun i hi => by simp [defaultStructure, hi], fun i => by simp [defaultStructure], rfl, ?_, ?_⟩
  · have : (defaultStructure g primal dual).n = primal.length + dual.length := rfl
    rw [this, segOffset_default _ _ _ _ (le_refl _), sum_getD]
  · simp [totalDim, foldl_add_list]

/-- **C67, KKT matrices**: every symmetric matrix whose dual-dual part is diagonal (in particular every `[H, J^T; J, -mu I]`)
has the default pattern. -/
theorem C67_kkt_has_pattern (g : ℕ → ℕ → BlockKind) (primal dual : List ℕ) (A : ℕ → ℕ → K)
    (hA : ∀ i j, primal.sum ≤ i → primal.sum ≤ j → i ≠ j → A i j = 0) :
    HasPattern (primal.length + dual.length) (defaultStructure g primal dual).lens (defaultStructure g primal dual).kinds A := by
  intro i hi j hj r hr c hc hna
  rw [defaultKinds_eq, if_pos ⟨hi, hj⟩] at hna
  by_cases h : i < primal.length ∨ j < primal.length
  · rw [if_pos h] at hna; exact absurd trivial hna
  rw [if_neg h] at hna
  push Not at h
  obtain ⟨i, rfl⟩ : ∃ a, i = primal.length + a := ⟨i - primal.length, by omega⟩
  obtain ⟨j, rfl⟩ : ∃ a, j = primal.length + a := ⟨j - primal.length, by omega⟩
  have hoi := segOffset_default g primal dual i (by omega)
  have hoj := segOffset_default g primal dual j (by omega)
  refine hA _ _ (by omega) (by omega) ?_
  by_cases hij : i = j
  · subst hij
    rw [if_pos rfl] at hna
    simp only [Allows] at hna
    omega
  · intro he
    rcases Nat.lt_or_gt_of_ne hij with hlt | hgt
    · have h1 := segOffset_lt (defaultStructure g primal dual).lens (i := primal.length + i) (n := primal.length + j) (by omega) hr
      omega
    · have h1 := segOffset_lt (defaultStructure g primal dual).lens (i := primal.length + j) (n := primal.length + i) (by omega) hc
      omega

/-- Not vacuous: one primal block of size 2, constraints of sizes 1 and 2. -/
example : (defaultStructure (fun _ _ => triU) [2] [1, 2]).kinds 1 2 = zero ∧ (defaultStructure (fun _ _ => triU) [2] [1, 2]).kinds 0 2 = dense ∧
    (defaultStructure (fun _ _ => triU) [2] [1, 2]).kinds 2 2 = diag ∧ totalDim [2] [1, 2] = 5 := by decide

/-! ### C75 -/

theorem countNnz_eq (s : Sym) :
    countNnz s = ∑ i ∈ Finset.range s.n, ∑ j ∈ Finset.range s.n, nnzOf (s.kinds i j) (s.lens i) (s.lens j) := by
  unfold countNnz
  have : ∀ i acc, forRange 0 s.n (fun j acc => acc + nnzOf (s.kinds i j) (s.lens i) (s.lens j)) acc =
      acc + ∑ j ∈ Finset.range s.n, nnzOf (s.kinds i j) (s.lens i) (s.lens j) := by
    intro i acc
    rw [forRange_add]
    simp
  rw [forRange_congr _ _ _ (fun i acc => acc + ∑ j ∈ Finset.range s.n, nnzOf (s.kinds i j) (s.lens i) (s.lens j)) _ this, forRange_add]
  simp

/-- the number of allowed positions in a block -/
def allowedCount (k : BlockKind) (m n : ℕ) : ℕ := ∑ r ∈ Finset.range m, ∑ c ∈ Finset.range n, if Allows k r c then 1 else 0

theorem nnzOf_eq (k : BlockKind) (m n : ℕ) (h : k = diag ∨ k = triL ∨ k = triU → m = n) : nnzOf k m n = allowedCount k m n := by
  unfold allowedCount
  cases k with
  | zero => simp [nnzOf, Allows]
  | dense => simp [nnzOf, Allows]
  | diag =>
    have := h (Or.inl rfl); subst this
    simp only [nnzOf, Allows]
    rw [Finset.sum_congr rfl (g := fun _ => 1)]
    · simp
    · intro r hr
      rw [Finset.sum_ite_eq, if_pos hr]
  | triL =>
    have := h (Or.inr (Or.inl rfl)); subst this
    simp only [nnzOf, Allows]
    have : ∀ r ∈ Finset.range m, (∑ c ∈ Finset.range m, if c ≤ r then 1 else 0) = r + 1 := by
      intro r hr
      rw [Finset.mem_range] at hr
      rw [← Finset.sum_filter, Finset.sum_const, smul_eq_mul, mul_one]
      have : Finset.filter (fun c => c ≤ r) (Finset.range m) = Finset.range (r + 1) := by
        ext c; simp only [Finset.mem_filter, Finset.mem_range]; omega
      rw [this, Finset.card_range]
    rw [Finset.sum_congr rfl this]
    have h2 : (∑ i ∈ Finset.range m, (i + 1)) * 2 = m * (m + 1) := by
      have := Finset.sum_range_id_mul_two (m + 1)
      rw [Finset.sum_range_succ'] at this
      simpa [mul_comm] using this
    omega
  | triU =>
    have := h (Or.inr (Or.inr rfl)); subst this
    simp only [nnzOf, Allows]
    rw [Finset.sum_comm]
    have : ∀ r ∈ Finset.range m, (∑ c ∈ Finset.range m, if c ≤ r then 1 else 0) = r + 1 := by
      intro r hr
      rw [Finset.mem_range] at hr
      rw [← Finset.sum_filter, Finset.sum_const, smul_eq_mul, mul_one]
      have : Finset.filter (fun c => c ≤ r) (Finset.range m) = Finset.range (r + 1) := by
        ext c; simp only [Finset.mem_filter, Finset.mem_range]; omega
      rw [this, Finset.card_range]
    rw [Finset.sum_congr rfl this]
    have h2 : (∑ i ∈ Finset.range m, (i + 1)) * 2 = m * (m + 1) := by
      have := Finset.sum_range_id_mul_two (m + 1)
      rw [Finset.sum_range_succ'] at this
      simpa [mul_comm] using this
    omega

/-- **C75**: the reported count of nonzeros is the number of positions the pattern allows, when diagonal and triangular blocks
are square. -/
theorem C75_count_nnz (s : Sym) (h : ∀ i < s.n, ∀ j < s.n, s.kinds i j = diag ∨ s.kinds i j = triL ∨ s.kinds i j = triU → s.lens i = s.lens j) :
    countNnz s = ∑ i ∈ Finset.range s.n, ∑ j ∈ Finset.range s.n, ∑ r ∈ Finset.range (s.lens i), ∑ c ∈ Finset.range (s.lens j),
      if Allows (s.kinds i j) r c then 1 else 0 := by
  rw [countNnz_eq]
  refine Finset.sum_congr rfl fun i hi => Finset.sum_congr rfl fun j hj => ?_
  rw [Finset.mem_range] at hi hj
  exact nnzOf_eq _ _ _ (h i hi j hj)

/-- Beyond square blocks the count is wrong: a 3 × 1 diagonal block has one position, 3 are counted. -/
theorem C75_rectangular_false : nnzOf diag 3 1 = 3 ∧ allowedCount diag 3 1 = 1 := by decide

theorem checkIfSymmetric_eq (s : Sym) : checkIfSymmetric s = true ↔ ∀ i < s.n, ∀ j < i, s.kinds i j = s.kinds j i := by
  have inner : ∀ i acc, forRange 0 i (fun j acc => acc && decide (s.kinds i j = s.kinds j i)) acc = true ↔
      acc = true ∧ ∀ j < i, s.kinds i j = s.kinds j i := by
    intro i acc
    refine forRange_ind (fun k b => (b = true ↔ acc = true ∧ ∀ j < k, s.kinds i j = s.kinds j i)) 0 i _ acc ?_ ?_
    · simp
    · intro k b hk hb
      simp only [Nat.zero_add, Bool.and_eq_true, hb, decide_eq_true_eq]
      constructor
      · rintro ⟨⟨h1, h2⟩, h3⟩
        refine ⟨h1, fun j hj => ?_⟩
        rcases Nat.lt_succ_iff_lt_or_eq.1 hj with h | rfl
        · exact h2 j h
        · exact h3
      · rintro ⟨h1, h2⟩
        exact ⟨⟨h1, fun j hj => h2 j (by omega)⟩, h2 k (by omega)⟩
  unfold checkIfSymmetric
  refine forRange_ind (fun k b => (b = true ↔ ∀ i < k, ∀ j < i, s.kinds i j = s.kinds j i)) 0 s.n _ true (by simp) ?_
  intro k b hk hb
  rw [inner, hb, Nat.zero_add]
  constructor
  · rintro ⟨h1, h2⟩ i hi
    rcases Nat.lt_succ_iff_lt_or_eq.1 hi with h | rfl
    · exact h1 i h
    · exact h2
  · intro h
    exact ⟨fun i hi => h i (by omega), h k (by omega)⟩

/-- **C76**: `check_if_symmetric` compares kinds entry by entry; on patterns without triangular off-diagonal blocks it answers
whether the pattern is that of a symmetric matrix. -/
theorem C76_check_symmetric_partial (s : Sym) (h : ∀ i < s.n, ∀ j < s.n, i ≠ j → s.kinds i j ≠ triL ∧ s.kinds i j ≠ triU) :
    checkIfSymmetric s = true ↔ ∀ i < s.n, ∀ j < s.n, i ≠ j → s.kinds j i = trans (s.kinds i j) := by
  rw [checkIfSymmetric_eq]
  constructor
  · intro hs i hi j hj hij
    have ht : trans (s.kinds i j) = s.kinds i j := by
      have := h i hi j hj hij
      cases hk : s.kinds i j <;> simp_all [BlockKind.trans]
    rw [ht]
    rcases Nat.lt_or_gt_of_ne hij with hlt | hgt
    · exact hs j hj i hlt
    · exact (hs i hi j hgt).symm
  · intro hs i hi j hj
    have h1 := hs i hi j (by omega) (by omega)
    have ht : trans (s.kinds i j) = s.kinds i j := by
      have := h i hi j (by omega) (by omega)
      cases hk : s.kinds i j <;> simp_all [BlockKind.trans]
    rw [h1, ht]

/-- **C76 is false in general**: the pattern of a symmetric matrix with an upper triangular block above the diagonal (and its
transpose, lower triangular, below) is rejected, and a pattern with the same triangular kind on both sides is accepted. -/
theorem C76_check_symmetric_false :
    checkIfSymmetric ⟨2, fun _ => 2, fun i j => if i = 0 ∧ j = 1 then triU else if i = 1 ∧ j = 0 then triL else dense, false⟩ = false ∧
    checkIfSymmetric ⟨2, fun _ => 2, fun i j => if i ≠ j then triU else dense, false⟩ = true := by decide

example : checkIfSymmetric (defaultStructure (fun _ _ => triU) [2] [1, 2]) = true := by decide

end ProxNLP
