import Verif.Model.BlockTri
import Verif.Props.Gemmt
import Verif.Props.Permutation
import Mathlib.Algebra.BigOperators.Intervals
import Mathlib.Tactic.LinearCombination
import Mathlib.Tactic.FieldSimp

/-! Lemmas on the block triangular solve. -/

set_option linter.unusedSectionVars false
namespace ProxNLP

open BlockKind Spec

variable {K : Type} [Field K]

namespace Spec

/-- The (unit) lower or upper triangular part of a matrix. -/
def triView (lower unit : Bool) (M : ℕ → ℕ → K) : ℕ → ℕ → K := fun r c =>
  if r = c then (if unit then 1 else M r r) else if (if lower then c < r else r < c) then M r c else 0

/-- The strictly lower (upper) blocks of a matrix have the declared kinds, with diagonal ones square, and a
diagonal block declared diagonal vanishes off its diagonal, on the side that is read. -/
structure TriPattern (lower : Bool) (n : ℕ) (lens : ℕ → ℕ) (kinds : ℕ → ℕ → BlockKind) (M : ℕ → ℕ → K) : Prop where
  off : ∀ i < n, ∀ j < n, (if lower then j < i else i < j) →
    HasKind (kinds i j) (lens i) (lens j) fun r c => M (segOffset lens i + r) (segOffset lens j + c)
  square : ∀ i < n, ∀ j < n, (if lower then j < i else i < j) → kinds i j = diag → lens i = lens j
  diagonal : ∀ i < n, kinds i i = diag → ∀ r < lens i, ∀ c < lens i, (if lower then c < r else r < c) →
    M (segOffset lens i + r) (segOffset lens i + c) = 0

end Spec

theorem triView_shift (lower unit : Bool) (M : ℕ → ℕ → K) (o r c : ℕ) :
    triView lower unit M (o + r) (o + c) = triView lower unit (fun r c => M (o + r) (o + c)) r c := by
  simp only [triView, Nat.add_left_cancel_iff, Nat.add_lt_add_iff_left]

theorem fwdSolve_spec (unit : Bool) (n : ℕ) (M : ℕ → ℕ → K) (b : ℕ → K) (hd : unit = false → ∀ i < n, M i i ≠ 0) :
    (∀ i < n, ∑ k ∈ Finset.range i, M i k * fwdSolve unit n M b k + (if unit then 1 else M i i) * fwdSolve unit n M b i = b i) ∧
    (∀ i, n ≤ i → fwdSolve unit n M b i = b i) := by
  refine forRange_ind (fun j x => (∀ i < j, ∑ k ∈ Finset.range i, M i k * x k + (if unit then 1 else M i i) * x i = b i) ∧
    ∀ i, j ≤ i → x i = b i) 0 n _ b ⟨fun i hi => by omega, fun _ _ => rfl⟩ ?_
  intro j x hj ⟨h1, h2⟩
  rw [Nat.zero_add]
  have hs : ∀ v, ∀ i ≤ j, ∑ k ∈ Finset.range i, M i k * Function.update x j v k = ∑ k ∈ Finset.range i, M i k * x k := by
    intro v i hi
    refine Finset.sum_congr rfl fun k hk => ?_
    rw [Finset.mem_range] at hk
    rw [Function.update_of_ne (by omega)]
  have hdj : (if unit then (1 : K) else M j j) ≠ 0 := by
    cases unit with
    | true => simp
    | false => simpa using hd rfl j hj
  constructor
  · intro i hi
    rw [hs _ i (by omega)]
    by_cases hij : i = j
    · subst hij
      rw [Function.update_self, h2 i le_rfl, mul_div_cancel₀ _ hdj]
      ring
    · rw [Function.update_of_ne hij]
      exact h1 i (by omega)
  · intro i hi
    rw [Function.update_of_ne (by omega)]
    exact h2 i (by omega)

theorem bwdSolve_spec (unit : Bool) (n : ℕ) (M : ℕ → ℕ → K) (b : ℕ → K) (hd : unit = false → ∀ i < n, M i i ≠ 0) :
    (∀ i < n, (if unit then 1 else M i i) * bwdSolve unit n M b i +
      ∑ k ∈ Finset.range (n - 1 - i), M i (i + 1 + k) * bwdSolve unit n M b (i + 1 + k) = b i) ∧
    (∀ i, n ≤ i → bwdSolve unit n M b i = b i) := by
  have := forRange_ind (fun t x => (∀ i < n, n - t ≤ i → (if unit then 1 else M i i) * x i +
      ∑ k ∈ Finset.range (n - 1 - i), M i (i + 1 + k) * x (i + 1 + k) = b i) ∧
    (∀ i < n - t, x i = b i) ∧ ∀ i, n ≤ i → x i = b i) 0 n (fun t x => Function.update x (n - 1 - t)
    ((x (n - 1 - t) - ∑ k ∈ Finset.range t, M (n - 1 - t) (n - t + k) * x (n - t + k)) /
      (if unit then 1 else M (n - 1 - t) (n - 1 - t)))) b
    ⟨fun i hi h => by omega, fun _ _ => rfl, fun _ _ => rfl⟩ ?_
  · exact ⟨fun i hi => this.1 i hi (by omega), this.2.2⟩
  intro t x ht ⟨h1, h2, h3⟩
  rw [Nat.zero_add]
  have hs : ∀ i < n, n - 1 - t ≤ i → ∀ v, ∑ k ∈ Finset.range (n - 1 - i), M i (i + 1 + k) * Function.update x (n - 1 - t) v (i + 1 + k) =
      ∑ k ∈ Finset.range (n - 1 - i), M i (i + 1 + k) * x (i + 1 + k) := by
    intro i hi h v
    refine Finset.sum_congr rfl fun k hk => ?_
    rw [Function.update_of_ne (by omega)]
  refine ⟨?_, ?_, ?_⟩
  · intro i hi hti
    rw [hs i hi (by omega)]
    by_cases hij : i = n - 1 - t
    · have h4 := h2 i (by omega)
      have h5 : n - 1 - i = t := by omega
      have h6 : i + 1 = n - t := by omega
      have hdj : (if unit then (1 : K) else M i i) ≠ 0 := by
        cases unit with
        | true => simp
        | false => simpa using hd rfl i hi
      rw [h5, h6, ← hij, Function.update_self, h4, mul_div_cancel₀ _ hdj]
      ring
    · rw [Function.update_of_ne hij]
      exact h1 i hi (by omega)
  · intro i hi
    rw [Function.update_of_ne (by omega)]
    exact h2 i (by omega)
  · intro i hi
    rw [Function.update_of_ne (by omega)]
    exact h3 i (by omega)

/-- a sum against a row of a lower triangular matrix -/
theorem sum_triView_lower (unit : Bool) (n i : ℕ) (hi : i < n) (M : ℕ → ℕ → K) (x : ℕ → K) :
    ∑ j ∈ Finset.range n, triView true unit M i j * x j = ∑ k ∈ Finset.range i, M i k * x k + (if unit then 1 else M i i) * x i := by
  have h1 : ∑ j ∈ Finset.range n, triView true unit M i j * x j = ∑ j ∈ Finset.range (i + 1), triView true unit M i j * x j := by
    symm
    apply Finset.sum_subset (Finset.range_mono (by omega))
    intro k hk hk'
    rw [Finset.mem_range] at hk hk'
    simp only [triView]
    rw [if_neg (by omega), if_neg (by simp; omega), zero_mul]
  rw [h1, Finset.sum_range_succ]
  congr 1
  · refine Finset.sum_congr rfl fun k hk => ?_
    rw [Finset.mem_range] at hk
    simp only [triView]
    rw [if_neg (by omega), if_pos (by simpa using hk)]
  · simp only [triView, if_true]

/-- a sum against a row of an upper triangular matrix -/
theorem sum_triView_upper (unit : Bool) (n i : ℕ) (hi : i < n) (M : ℕ → ℕ → K) (x : ℕ → K) :
    ∑ j ∈ Finset.range n, triView false unit M i j * x j =
      (if unit then 1 else M i i) * x i + ∑ k ∈ Finset.range (n - 1 - i), M i (i + 1 + k) * x (i + 1 + k) := by
  have hn : n = (i + 1) + (n - 1 - i) := by omega
  have : ∑ j ∈ Finset.range n, triView false unit M i j * x j =
      ∑ j ∈ Finset.range (i + 1), triView false unit M i j * x j +
        ∑ k ∈ Finset.range (n - 1 - i), triView false unit M i (i + 1 + k) * x (i + 1 + k) := by
    conv_lhs => rw [hn]
    rw [Finset.sum_range_add]
  rw [this, Finset.sum_range_succ]
  have h0 : ∑ j ∈ Finset.range i, triView false unit M i j * x j = 0 := by
    refine Finset.sum_eq_zero fun k hk => ?_
    rw [Finset.mem_range] at hk
    simp only [triView]
    rw [if_neg (by omega), if_neg (by simp; omega), zero_mul]
  rw [h0, zero_add]
  congr 1
  · simp only [triView, if_true]
  · refine Finset.sum_congr rfl fun k hk => ?_
    simp only [triView]
    rw [if_neg (by omega), if_pos (by simp; omega)]

/-- the solve with a diagonal block of a supported kind -/
theorem subsolve_spec (lower unit : Bool) (kind : BlockKind) (n0 : ℕ) (L : ℕ → ℕ → K) (b x : ℕ → K)
    (hk : kind = diag ∨ kind = if lower then triL else triU)
    (hd : unit = false → ∀ i < n0, L i i ≠ 0)
    (hdiag : kind = diag → ∀ r < n0, ∀ c < n0, (if lower then c < r else r < c) → L r c = 0)
    (h : subsolve lower unit kind n0 L b = some x) :
    ∀ i < n0, ∑ j ∈ Finset.range n0, triView lower unit L i j * x j = b i := by
  intro i hi
  by_cases hkd : kind = diag
  · subst hkd
    simp only [subsolve, Option.some.injEq] at h
    rw [sum_one_term _ _ i hi fun q hq hne => ?_]
    · subst h
      cases unit with
      | true => simp [triView]
      | false =>
        have := hd rfl i hi
        simp only [triView, if_true, Bool.false_eq_true, if_false, if_pos hi]
        field_simp
    · simp only [triView]
      rw [if_neg (Ne.symm hne)]
      by_cases hlt : (if lower = true then q < i else i < q)
      · rw [if_pos hlt, hdiag rfl i hi q hq hlt, zero_mul]
      · rw [if_neg hlt, zero_mul]
  · have hk' := hk.resolve_left hkd
    subst hk'
    cases lower with
    | true =>
      simp only [subsolve, if_true, Option.some.injEq] at h
      subst h
      rw [sum_triView_lower unit n0 i hi]
      exact (fwdSolve_spec unit n0 L b hd).1 i hi
    | false =>
      simp only [subsolve, Bool.false_eq_true, if_false, Option.some.injEq] at h
      subst h
      rw [sum_triView_upper unit n0 i hi]
      exact (bwdSolve_spec unit n0 L b hd).1 i hi

/-- the part of the right-hand side accounted for: rows in `S` are solved, the other rows reduced by the columns in `S` -/
def Reduced (N : ℕ) (T : ℕ → ℕ → K) (b : ℕ → K) (S : Finset ℕ) (x : ℕ → K) : Prop :=
  ∀ r < N, (if r ∈ S then 0 else x r) + ∑ j ∈ S, T r j * x j = b r

theorem Reduced.step {N : ℕ} {T : ℕ → ℕ → K} {b x x' : ℕ → K} {S B : Finset ℕ} (h : Reduced N T b S x)
    (hdis : Disjoint S B) (hBN : ∀ r ∈ B, r < N) (hS : ∀ r ∈ S, x' r = x r) (hT : ∀ r ∈ S, ∀ j ∈ B, T r j = 0)
    (hB : ∀ r ∈ B, ∑ j ∈ B, T r j * x' j = x r)
    (hR : ∀ r < N, r ∉ S → r ∉ B → x' r = x r - ∑ j ∈ B, T r j * x' j) : Reduced N T b (S ∪ B) x' := by
  intro r hr
  rw [Finset.sum_union hdis]
  have hsum : ∑ j ∈ S, T r j * x' j = ∑ j ∈ S, T r j * x j := Finset.sum_congr rfl fun j hj => by rw [hS j hj]
  rw [hsum, ← h r hr]
  by_cases h1 : r ∈ S
  · have h0 : ∑ j ∈ B, T r j * x' j = 0 := Finset.sum_eq_zero fun j hj => by rw [hT r h1 j hj, zero_mul]
    rw [if_pos (Finset.mem_union_left _ h1), if_pos h1, h0]
    ring
  · rw [if_neg h1]
    by_cases h2 : r ∈ B
    · rw [if_pos (Finset.mem_union_right _ h2), hB r h2]
      ring
    · rw [if_neg (by simp [h1, h2]), hR r hr h1 h2]
      ring

theorem segOffset_succ (lens : ℕ → ℕ) (i : ℕ) : segOffset lens (i + 1) = segOffset lens i + lens i := Finset.sum_range_succ _ _

/-- block rows do not overlap -/
theorem segOffset_sep (lens : ℕ → ℕ) {i j : ℕ} (h : i < j) : segOffset lens i + lens i ≤ segOffset lens j := by
  rw [← segOffset_succ]
  exact segOffset_mono lens h

/-- every row lies in a block -/
theorem segOffset_cover (lens : ℕ → ℕ) (n r : ℕ) (h : r < segOffset lens n) :
    ∃ i < n, segOffset lens i ≤ r ∧ r < segOffset lens i + lens i := by
  induction n with
  | zero => simp [segOffset] at h
  | succ n ih =>
    by_cases hr : r < segOffset lens n
    · obtain ⟨i, hi, h1⟩ := ih hr
      exact ⟨i, by omega, h1⟩
    · rw [segOffset_succ] at h
      exact ⟨n, by omega, by omega, h⟩

/-- one block product of the update, rows of block `p ≠ i` -/
theorem btBlock_spec (s : Sym) (M : ℕ → ℕ → K) (w i p : ℕ) (b : ℕ → ℕ → K)
    (hk : HasKind (s.kinds p i) (s.lens p) (s.lens i) fun r c => M (segOffset s.lens p + r) (segOffset s.lens i + c))
    (hsq : s.kinds p i = diag → s.lens p = s.lens i) (r c : ℕ) (hc : c < w) :
    btBlock s M w i p b r c =
      if segOffset s.lens p ≤ r ∧ r < segOffset s.lens p + s.lens p then
        b r c - ∑ k ∈ Finset.range (s.lens i), M r (segOffset s.lens i + k) * b (segOffset s.lens i + k) c
      else b r c := by
  simp only [btBlock, putRows, blockStart_eq]
  by_cases h : segOffset s.lens p ≤ r ∧ r < segOffset s.lens p + s.lens p
  · rw [if_pos ⟨h.1, h.2, hc⟩, if_pos h]
    have := C59_adds_product_partial (s.kinds p i) dense (s.lens p) (s.lens i) w (-1 : K) _
      (fun c r => b (segOffset s.lens i + r) c) (fun r c => b (segOffset s.lens p + r) c) hk
      (fun _ _ _ _ h => absurd trivial h) ⟨hsq, fun h => (by cases h), fun _ h => (by cases h), fun _ h => (by cases h)⟩ (by intro _ h; cases h)
    rw [this.1 (r - segOffset s.lens p) (by omega) c hc]
    have he : segOffset s.lens p + (r - segOffset s.lens p) = r := by omega
    simp only [he]
    ring
  · rw [if_neg (by tauto), if_neg h]

/-- the update of the rows below (above) a block -/
theorem btUpdate_spec (lower useGemm : Bool) (s : Sym) (M : ℕ → ℕ → K) (w i : ℕ) (hi : i < s.n) (b : ℕ → ℕ → K)
    (hP : TriPattern lower s.n s.lens s.kinds M) (r c : ℕ) (hc : c < w) :
    btUpdate lower useGemm s M w i b r c =
      if (if lower then segOffset s.lens i + s.lens i ≤ r ∧ r < segOffset s.lens s.n else r < segOffset s.lens i) then
        b r c - ∑ k ∈ Finset.range (s.lens i), M r (segOffset s.lens i + k) * b (segOffset s.lens i + k) c
      else b r c := by
  cases useGemm with
  | false =>
    simp only [btUpdate, Bool.false_eq_true, if_false, blockStart_eq]
    by_cases h : (if lower then segOffset s.lens i + s.lens i ≤ r ∧ r < segOffset s.lens s.n else r < segOffset s.lens i)
    · rw [if_pos ⟨h, hc⟩, if_pos h]
    · rw [if_neg (by tauto), if_neg h]
  | true =>
    simp only [btUpdate, if_true]
    cases lower with
    | true =>
      simp only [if_true]
      -- after `t` blocks
      have key := forRange_ind (fun t (x : ℕ → ℕ → K) => ∀ r, x r c =
          if segOffset s.lens (i + 1) ≤ r ∧ r < segOffset s.lens (i + 1 + t) then
            b r c - ∑ k ∈ Finset.range (s.lens i), M r (segOffset s.lens i + k) * b (segOffset s.lens i + k) c
          else b r c) (i + 1) (s.n - (i + 1)) (btBlock s M w i) b ?_ ?_
      · rw [key r]
        have he : i + 1 + (s.n - (i + 1)) = s.n := by omega
        rw [he, segOffset_succ]
      · intro r
        rw [if_neg (by simp only [Nat.add_zero]; omega)]
      · intro t x ht hx r
        rw [btBlock_spec s M w i (i + 1 + t) x (hP.off _ (by omega) _ hi (by simp; omega)) (hP.square _ (by omega) _ hi (by simp; omega)) r c hc]
        have h1 := segOffset_succ s.lens (i + 1 + t)
        have h2 := segOffset_mono s.lens (i := i + 1) (j := i + 1 + t) (by omega)
        have h3 := segOffset_succ s.lens i
        have hsum : ∑ k ∈ Finset.range (s.lens i), M r (segOffset s.lens i + k) * x (segOffset s.lens i + k) c =
            ∑ k ∈ Finset.range (s.lens i), M r (segOffset s.lens i + k) * b (segOffset s.lens i + k) c := by
          refine Finset.sum_congr rfl fun k hk => ?_
          rw [Finset.mem_range] at hk
          rw [hx, if_neg (by omega)]
        rw [hsum, hx r]
        have h4 : i + 1 + (t + 1) = i + 1 + t + 1 := by omega
        rw [h4, h1]
        by_cases ha : segOffset s.lens (i + 1 + t) ≤ r ∧ r < segOffset s.lens (i + 1 + t) + s.lens (i + 1 + t)
        · rw [if_pos ha, if_neg (by omega), if_pos (by omega)]
        · rw [if_neg ha]
          by_cases hb : segOffset s.lens (i + 1) ≤ r ∧ r < segOffset s.lens (i + 1 + t)
          · rw [if_pos hb, if_pos (by omega)]
          · rw [if_neg hb, if_neg (by omega)]
    | false =>
      simp only [Bool.false_eq_true, if_false]
      have key := forRange_ind (fun t (x : ℕ → ℕ → K) => ∀ r, x r c =
          if r < segOffset s.lens t then
            b r c - ∑ k ∈ Finset.range (s.lens i), M r (segOffset s.lens i + k) * b (segOffset s.lens i + k) c
          else b r c) 0 i (btBlock s M w i) b ?_ ?_
      · rw [key r]
      · intro r
        rw [if_neg (by simp [segOffset])]
      · intro t x ht hx r
        rw [Nat.zero_add, btBlock_spec s M w i t x (hP.off _ (by omega) _ hi (by simpa using ht)) (hP.square _ (by omega) _ hi (by simpa using ht)) r c hc]
        have h1 := segOffset_succ s.lens t
        have h2 := segOffset_mono s.lens (i := t) (j := i) (by omega)
        have hsum : ∑ k ∈ Finset.range (s.lens i), M r (segOffset s.lens i + k) * x (segOffset s.lens i + k) c =
            ∑ k ∈ Finset.range (s.lens i), M r (segOffset s.lens i + k) * b (segOffset s.lens i + k) c := by
          refine Finset.sum_congr rfl fun k hk => ?_
          rw [Finset.mem_range] at hk
          rw [hx, if_neg (by omega)]
        rw [hsum, hx r, h1]
        by_cases ha : segOffset s.lens t ≤ r ∧ r < segOffset s.lens t + s.lens t
        · rw [if_pos ha, if_neg (by omega), if_pos (by omega)]
        · rw [if_neg ha]
          by_cases hb : r < segOffset s.lens t
          · rw [if_pos hb, if_pos (by omega)]
          · rw [if_neg hb, if_neg (by omega)]

/-- the solve with one diagonal block -/
theorem btDiagonal_spec (lower unit : Bool) (s : Sym) (M : ℕ → ℕ → K) (w i : ℕ) (hi : i < s.n) (b b' : ℕ → ℕ → K)
    (hk : s.kinds i i = diag ∨ s.kinds i i = if lower then triL else triU)
    (hd : unit = false → ∀ r < s.lens i, M (segOffset s.lens i + r) (segOffset s.lens i + r) ≠ 0)
    (hP : TriPattern lower s.n s.lens s.kinds M) (h : btDiagonal lower unit s M w i b = some b') (c : ℕ) (hc : c < w) :
    (∀ r, ¬ (segOffset s.lens i ≤ r ∧ r < segOffset s.lens i + s.lens i) → b' r c = b r c) ∧
    (∀ r < s.lens i, ∑ j ∈ Finset.range (s.lens i), triView lower unit M (segOffset s.lens i + r) (segOffset s.lens i + j) *
      b' (segOffset s.lens i + j) c = b (segOffset s.lens i + r) c) := by
  simp only [btDiagonal, blockStart_eq] at h
  split at h
  · cases h
  · rename_i hsome
    cases h
    constructor
    · intro r hr
      simp only [putRows]
      rw [if_neg (by tauto)]
    · intro r hr
      obtain ⟨x, hx⟩ : ∃ x, subsolve lower unit (s.kinds i i) (s.lens i) (fun r c => M (segOffset s.lens i + r) (segOffset s.lens i + c))
          (fun r => b (segOffset s.lens i + r) c) = some x := by
        rcases hk with hk | hk <;> rw [hk]
        · exact ⟨_, rfl⟩
        · cases lower <;> exact ⟨_, rfl⟩
      have := subsolve_spec lower unit (s.kinds i i) (s.lens i) _ _ x hk hd (fun hkd => hP.diagonal i hi hkd) hx r hr
      rw [← this]
      refine Finset.sum_congr rfl fun j hj => ?_
      rw [Finset.mem_range] at hj
      rw [triView_shift]
      congr 1
      simp only [putRows]
      rw [if_pos (by omega)]
      have he : segOffset s.lens i + j - segOffset s.lens i = j := by omega
      rw [hx, he, Option.getD_some]

/-- one pass of the loop -/
theorem bt_step (lower unit useGemm : Bool) (s : Sym) (M : ℕ → ℕ → K) (w i : ℕ) (hi : i < s.n) (b x x' : ℕ → ℕ → K)
    (hk : s.kinds i i = diag ∨ s.kinds i i = if lower then triL else triU)
    (hd : unit = false → ∀ r < segOffset s.lens s.n, M r r ≠ 0)
    (hP : TriPattern lower s.n s.lens s.kinds M) (h : btDiagonal lower unit s M w i x = some x') (c : ℕ) (hc : c < w)
    (S : Finset ℕ) (hS : ∀ r, r ∈ S ↔ if lower then r < segOffset s.lens i else segOffset s.lens i + s.lens i ≤ r ∧ r < segOffset s.lens s.n)
    (hred : Reduced (segOffset s.lens s.n) (triView lower unit M) (fun r => b r c) S fun r => x r c) :
    Reduced (segOffset s.lens s.n) (triView lower unit M) (fun r => b r c)
      (S ∪ Finset.Ico (segOffset s.lens i) (segOffset s.lens i + s.lens i)) fun r => btUpdate lower useGemm s M w i x' r c := by
  have hsep := segOffset_sep s.lens hi
  obtain ⟨h1, h2⟩ := btDiagonal_spec lower unit s M w i hi x x' hk (fun hu r hr => hd hu _ (by omega)) hP h c hc
  have hupd := fun r => btUpdate_spec lower useGemm s M w i hi x' hP r c hc
  -- rows of the block are not touched by the update
  have hblk : ∀ j < s.lens i, btUpdate lower useGemm s M w i x' (segOffset s.lens i + j) c = x' (segOffset s.lens i + j) c := by
    intro j hj
    rw [hupd, if_neg]
    cases lower <;> simp <;> omega
  have hsum : ∀ r, ∑ j ∈ Finset.Ico (segOffset s.lens i) (segOffset s.lens i + s.lens i), triView lower unit M r j *
      btUpdate lower useGemm s M w i x' j c = ∑ k ∈ Finset.range (s.lens i), triView lower unit M r (segOffset s.lens i + k) *
        x' (segOffset s.lens i + k) c := by
    intro r
    rw [Finset.sum_Ico_eq_sum_range, Nat.add_sub_cancel_left]
    refine Finset.sum_congr rfl fun k hk => ?_
    rw [hblk k (Finset.mem_range.1 hk)]
  refine hred.step ?_ ?_ ?_ ?_ ?_ ?_
  · rw [Finset.disjoint_left]
    intro r hr hr'
    rw [hS] at hr
    rw [Finset.mem_Ico] at hr'
    cases lower <;> simp at hr <;> omega
  · intro r hr
    rw [Finset.mem_Ico] at hr
    omega
  · intro r hr
    rw [hS] at hr
    rw [hupd, if_neg, h1 r]
    · cases lower <;> simp at hr <;> omega
    · cases lower <;> simp at hr ⊢ <;> omega
  · intro r hr j hj
    rw [hS] at hr
    rw [Finset.mem_Ico] at hj
    simp only [triView]
    rw [if_neg, if_neg] <;> cases lower <;> simp at hr ⊢ <;> omega
  · intro r hr
    rw [Finset.mem_Ico] at hr
    rw [hsum]
    obtain ⟨t, rfl⟩ : ∃ t, r = segOffset s.lens i + t := ⟨r - segOffset s.lens i, by omega⟩
    exact h2 t (by omega)
  · intro r hr hrS hrB
    rw [hS] at hrS
    rw [Finset.mem_Ico] at hrB
    have hout : if lower = true then segOffset s.lens i + s.lens i ≤ r ∧ r < segOffset s.lens s.n else r < segOffset s.lens i := by
      cases lower <;> simp at hrS ⊢ <;> omega
    rw [hsum, hupd, if_pos hout, h1 r hrB]
    congr 1
    refine Finset.sum_congr rfl fun k hk => ?_
    rw [Finset.mem_range] at hk
    congr 1
    simp only [triView]
    rw [if_neg, if_pos] <;> cases lower <;> simp at hout ⊢ <;> omega

/-- a supported diagonal kind does not fail -/
theorem btDiagonal_isSome (lower unit : Bool) (s : Sym) (M : ℕ → ℕ → K) (w i : ℕ) (b : ℕ → ℕ → K) :
    (btDiagonal lower unit s M w i b).isSome = true ↔ s.kinds i i ≠ zero ∧ s.kinds i i ≠ dense := by
  simp only [btDiagonal]
  generalize s.kinds i i = k
  cases k <;> simp [subsolve]

theorem range_reverse_succ (m : ℕ) : (List.range (m + 1)).reverse = m :: (List.range m).reverse := by
  rw [List.range_succ, List.reverse_append]
  rfl

end ProxNLP
