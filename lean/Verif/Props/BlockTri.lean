import Verif.Lemmas.BlockTri
import Verif.Lemmas.Check

/-! Property theorems for C60: the block triangular solve. -/

set_option linter.unusedSectionVars false
namespace ProxNLP

open BlockKind Spec

variable {K : Type} [Field K]

theorem btLoop_lower (unit useGemm : Bool) (s : Sym) (M : ℕ → ℕ → K) (w : ℕ) (b : ℕ → ℕ → K)
    (hk : ∀ i < s.n, s.kinds i i = diag ∨ s.kinds i i = triL)
    (hd : unit = false → ∀ r < segOffset s.lens s.n, M r r ≠ 0)
    (hP : TriPattern true s.n s.lens s.kinds M) (k i : ℕ) (hki : i + k = s.n) (x : ℕ → ℕ → K)
    (hx : ∀ c < w, Reduced (segOffset s.lens s.n) (triView true unit M) (fun r => b r c) (Finset.range (segOffset s.lens i)) fun r => x r c) :
    (btLoop true unit useGemm s M w (List.range' i k) x).1 = true ∧
    ∀ c < w, Reduced (segOffset s.lens s.n) (triView true unit M) (fun r => b r c) (Finset.range (segOffset s.lens s.n))
      fun r => (btLoop true unit useGemm s M w (List.range' i k) x).2 r c := by
  induction k generalizing i x with
  | zero =>
    obtain rfl : i = s.n := by omega
    exact ⟨rfl, hx⟩
  | succ k ih =>
    have hi : i < s.n := by omega
    have hki' := hk i hi
    rw [List.range'_succ]
    obtain ⟨x', hx'⟩ := Option.isSome_iff_exists.1 ((btDiagonal_isSome true unit s M w i x).2 (by rcases hki' with h | h <;> simp [h]))
    simp only [btLoop, hx']
    refine ih (i + 1) (by omega) _ fun c hc => ?_
    have := bt_step true unit useGemm s M w i hi b x x' (by simpa using hki') hd hP hx' c hc _ (by simp) (hx c hc)
    rw [segOffset_succ]
    have hu : Finset.range (segOffset s.lens i) ∪ Finset.Ico (segOffset s.lens i) (segOffset s.lens i + s.lens i) =
        Finset.range (segOffset s.lens i + s.lens i) := by
      ext r
      simp only [Finset.mem_union, Finset.mem_range, Finset.mem_Ico]
      omega
    rw [hu] at this
    exact this

theorem btLoop_upper (unit useGemm : Bool) (s : Sym) (M : ℕ → ℕ → K) (w : ℕ) (b : ℕ → ℕ → K)
    (hk : ∀ i < s.n, s.kinds i i = diag ∨ s.kinds i i = triU)
    (hd : unit = false → ∀ r < segOffset s.lens s.n, M r r ≠ 0)
    (hP : TriPattern false s.n s.lens s.kinds M) (k : ℕ) (hkn : k ≤ s.n) (x : ℕ → ℕ → K)
    (hx : ∀ c < w, Reduced (segOffset s.lens s.n) (triView false unit M) (fun r => b r c)
      (Finset.Ico (segOffset s.lens k) (segOffset s.lens s.n)) fun r => x r c) :
    (btLoop false unit useGemm s M w (List.range k).reverse x).1 = true ∧
    ∀ c < w, Reduced (segOffset s.lens s.n) (triView false unit M) (fun r => b r c) (Finset.Ico 0 (segOffset s.lens s.n))
      fun r => (btLoop false unit useGemm s M w (List.range k).reverse x).2 r c := by
  induction k generalizing x with
  | zero => exact ⟨rfl, hx⟩
  | succ k ih =>
    have hi : k < s.n := by omega
    have hki' := hk k hi
    rw [range_reverse_succ]
    obtain ⟨x', hx'⟩ := Option.isSome_iff_exists.1 ((btDiagonal_isSome false unit s M w k x).2 (by rcases hki' with h | h <;> simp [h]))
    simp only [btLoop, hx']
    refine ih (by omega) _ fun c hc => ?_
    have hsep := segOffset_sep s.lens hi
    have := bt_step false unit useGemm s M w k hi b x x' (by simpa using hki') hd hP hx' c hc _
      (by intro r; rw [Finset.mem_Ico, segOffset_succ]; simp) (hx c hc)
    have hu : Finset.Ico (segOffset s.lens (k + 1)) (segOffset s.lens s.n) ∪ Finset.Ico (segOffset s.lens k) (segOffset s.lens k + s.lens k) =
        Finset.Ico (segOffset s.lens k) (segOffset s.lens s.n) := by
      ext r
      simp only [Finset.mem_union, Finset.mem_Ico, segOffset_succ]
      omega
    rw [hu] at this
    exact this

/-- **C60**: for every block triangular matrix with the declared structure, whose diagonal blocks are declared diagonal or
triangular on the proper side, the in-place solve reports success and leaves in every column the solution of `T x = b`, where
`T` is the (unit) lower or upper triangular part of the matrix; for both ways of multiplying the blocks. -/
theorem C60_solves (lower unit useGemm : Bool) (s : Sym) (M : ℕ → ℕ → K) (w : ℕ) (b : ℕ → ℕ → K)
    (hk : ∀ i < s.n, s.kinds i i = diag ∨ s.kinds i i = if lower then triL else triU)
    (hd : unit = false → ∀ r < segOffset s.lens s.n, M r r ≠ 0)
    (hP : TriPattern lower s.n s.lens s.kinds M) :
    (btSolve lower unit useGemm s M w b).1 = true ∧
    ∀ r < segOffset s.lens s.n, ∀ c < w,
      ∑ j ∈ Finset.range (segOffset s.lens s.n), triView lower unit M r j * (btSolve lower unit useGemm s M w b).2 j c = b r c := by
  cases lower with
  | true =>
    have h := btLoop_lower unit useGemm s M w b (by simpa using hk) hd hP s.n 0 (by omega) b
      (fun c hc r hr => by simp [segOffset])
    rw [← List.range_eq_range'] at h
    simp only [btSolve, if_true]
    refine ⟨h.1, fun r hr c hc => ?_⟩
    have := h.2 c hc r hr
    rw [if_pos (Finset.mem_range.2 hr), zero_add] at this
    exact this
  | false =>
    have h := btLoop_upper unit useGemm s M w b (by simpa using hk) hd hP s.n le_rfl b
      (fun c hc r hr => by simp)
    simp only [btSolve, Bool.false_eq_true, if_false]
    refine ⟨h.1, fun r hr c hc => ?_⟩
    have := h.2 c hc r hr
    rw [if_pos (Finset.mem_Ico.2 ⟨Nat.zero_le _, hr⟩), zero_add, ← Finset.range_eq_Ico] at this
    exact this

theorem btLoop_flag (lower unit useGemm : Bool) (s : Sym) (M : ℕ → ℕ → K) (w : ℕ) (l : List ℕ) (b : ℕ → ℕ → K) :
    (btLoop lower unit useGemm s M w l b).1 = true ↔ ∀ i ∈ l, s.kinds i i ≠ zero ∧ s.kinds i i ≠ dense := by
  induction l generalizing b with
  | nil => simp [btLoop]
  | cons i l ih =>
    simp only [btLoop, List.forall_mem_cons]
    rw [← btDiagonal_isSome lower unit s M w i b]
    cases h : btDiagonal lower unit s M w i b with
    | none => simp
    | some x => simp only [Option.isSome_some, true_and]; exact ih _

/-- **C60, reported failure**: the solve reports failure exactly when a diagonal block is declared zero or dense, whatever the
matrix and the right-hand side. -/
theorem C60_flag (lower unit useGemm : Bool) (s : Sym) (M : ℕ → ℕ → K) (w : ℕ) (b : ℕ → ℕ → K) :
    (btSolve lower unit useGemm s M w b).1 = true ↔ ∀ i < s.n, s.kinds i i ≠ zero ∧ s.kinds i i ≠ dense := by
  rw [btSolve, btLoop_flag]
  constructor
  · intro h i hi
    refine h i ?_
    cases lower <;> simp [hi]
  · intro h i hi
    refine h i ?_
    cases lower <;> simpa using hi

/-- **C60, uniqueness**: any `y` solving the same system agrees with the computed solution (unit triangular case), so both ways
of multiplying the blocks give the same result. -/
theorem C60_gemm_irrelevant (lower : Bool) (s : Sym) (M : ℕ → ℕ → K) (w : ℕ) (b : ℕ → ℕ → K)
    (hk : ∀ i < s.n, s.kinds i i = diag ∨ s.kinds i i = if lower then triL else triU)
    (hP : TriPattern lower s.n s.lens s.kinds M) (y : ℕ → ℕ → K)
    (hy : ∀ r < segOffset s.lens s.n, ∀ c < w, ∑ j ∈ Finset.range (segOffset s.lens s.n), triView lower true M r j * y j c = b r c)
    (useGemm : Bool) : ∀ r < segOffset s.lens s.n, ∀ c < w, (btSolve lower true useGemm s M w b).2 r c = y r c := by
  have h := (C60_solves lower true useGemm s M w b hk (by simp) hP).2
  generalize (btSolve lower true useGemm s M w b).2 = x at h
  generalize segOffset s.lens s.n = N at *
  intro r hr c hc
  cases lower with
  | true =>
    induction r using Nat.strong_induction_on with
    | _ r ih =>
      have h1 := h r hr c hc
      have h2 := hy r hr c hc
      rw [sum_triView_lower true N r hr M fun j => x j c] at h1
      rw [sum_triView_lower true N r hr M fun j => y j c] at h2
      rw [Finset.sum_congr rfl fun k hk => by rw [ih k (Finset.mem_range.1 hk) (by have := Finset.mem_range.1 hk; omega)]] at h1
      simp only [if_true, one_mul] at h1 h2
      linear_combination h1 - h2
  | false =>
    have key : ∀ t, ∀ r < N, N - 1 - r = t → x r c = y r c := by
      intro t
      induction t using Nat.strong_induction_on with
      | _ t ih =>
        intro r hr ht
        have h1 := h r hr c hc
        have h2 := hy r hr c hc
        rw [sum_triView_upper true N r hr M fun j => x j c] at h1
        rw [sum_triView_upper true N r hr M fun j => y j c] at h2
        rw [Finset.sum_congr rfl fun k hk => by
          have := Finset.mem_range.1 hk
          rw [ih (N - 1 - (r + 1 + k)) (by omega) (r + 1 + k) (by omega) rfl]] at h1
        simp only [if_true, one_mul] at h1 h2
        linear_combination h1 - h2
    exact key _ r hr rfl

namespace Demo

/-- blocks of sizes 2, 1, 2: diagonal kinds `triL, diag, diag`, one zero block, one triangular block -/
def btSym : Sym where
  n := 3
  lens := fun i => if i = 1 then 1 else 2
  kinds := fun i j => if i = 0 ∧ j = 0 then triL else if i = j then diag else if i = 1 ∧ j = 0 then dense
    else if i = 2 ∧ j = 0 then triU else zero
  performed := true

def btMat : ℕ → ℕ → ℚ := fun i j =>
  if i = j then (i : ℚ) + 2 else if i = 1 ∧ j = 0 then 3 else if i = 2 ∧ j = 0 then 1 else if i = 2 ∧ j = 1 then -1
  else if i = 3 ∧ j ≤ 1 then 2 else if i = 4 ∧ j = 1 then 5 else 0

end Demo

set_option synthInstance.maxHeartbeats 400000 in
set_option synthInstance.maxSize 1000 in
/-- the hypotheses of C60 are met by a structure with blocks of different sizes and kinds -/
example : (∀ i < Demo.btSym.n, Demo.btSym.kinds i i = diag ∨ Demo.btSym.kinds i i = if true then triL else triU) ∧
    TriPattern true Demo.btSym.n Demo.btSym.lens Demo.btSym.kinds Demo.btMat ∧
    (btSolve true false true Demo.btSym Demo.btMat 1 fun r _ => (r : ℚ)).2 4 0 = 7 / 18 := by
  have hlen : ∀ i, Demo.btSym.lens i ≤ 2 := fun i => by simp only [Demo.btSym]; split <;> omega
  refine ⟨by decide, ⟨?_, ?_, ?_⟩, by decide +kernel⟩
  · intro i hi j hj h r hr c hc ha
    have h1 : ∀ i < 3, ∀ j < 3, ∀ r < 2, ∀ c < 2, (j < i ∧ r < Demo.btSym.lens i ∧ c < Demo.btSym.lens j ∧ ¬ Allows (Demo.btSym.kinds i j) r c) →
      Demo.btMat (segOffset Demo.btSym.lens i + r) (segOffset Demo.btSym.lens j + c) = 0 := by decide +kernel
    exact h1 i hi j hj r (by have := hlen i; omega) c (by have := hlen j; omega) ⟨by simpa using h, hr, hc, ha⟩
  · intro i hi j hj h
    have h1 : ∀ i < 3, ∀ j < 3, j < i → (Demo.btSym.kinds i j = diag → Demo.btSym.lens i = Demo.btSym.lens j) := by
      decide +kernel
    exact h1 i hi j hj (by simpa using h)
  · intro i hi hk r hr c hc h
    have h1 : ∀ i < 3, ∀ r < 2, ∀ c < 2, (Demo.btSym.kinds i i = diag ∧ r < Demo.btSym.lens i ∧ c < Demo.btSym.lens i ∧ c < r) →
      Demo.btMat (segOffset Demo.btSym.lens i + r) (segOffset Demo.btSym.lens i + c) = 0 := by decide +kernel
    exact h1 i hi r (by have := hlen i; omega) c (by have := hlen i; omega) ⟨hk, hr, hc, by simpa using h⟩

/-- **The other triangular kind on the diagonal is silently ignored**: a lower solve on a matrix whose diagonal block is
declared (and is) upper triangular returns `true` and leaves the right-hand side as it was. Hence the restriction of the
diagonal kinds in C60. -/
theorem C60_wrong_triangle_false :
    ∃ (s : Sym) (M b : ℕ → ℕ → ℚ), s.n = 1 ∧ s.kinds 0 0 = triU ∧ HasKind triU 2 2 M ∧ s.lens 0 = 2 ∧
      (btSolve true false true s M 1 b).1 = true ∧
      ¬ ∀ r < 2, ∑ j ∈ Finset.range 2, M r j * (btSolve true false true s M 1 b).2 j 0 = b r 0 := by
  refine ⟨⟨1, fun _ => 2, fun _ _ => triU, true⟩, fun i j => if i ≤ j then 2 else 0, fun _ _ => 1, rfl, rfl,
    fun r _ c _ h => if_neg h, rfl, ?_, ?_⟩
  · exact (C60_flag ..).2 (by simp)
  · decide +kernel

end ProxNLP
