import Verif.Lemmas.BkCompute
import Verif.Props.Inertia
import Verif.Lemmas.Check
import Mathlib.LinearAlgebra.Matrix.ToLinearEquiv
import Mathlib.Analysis.Real.Sqrt

/-! Property theorems for C58 (Bunch-Kaufman factorisation and solve) and the Bunch-Kaufman part of C57 (signature). -/

set_option linter.unusedSectionVars false
namespace ProxNLP

open Spec
open Equiv (swap)
open Relation (ReflTransGen)

variable {K : Type} [Field K] [LinearOrder K] [IsStrictOrderedRing K]

/-- A Bunch-Kaufman factorisation: `A` with its rows and columns taken in the order `perm` is `L D L^T`, `L` unit lower
triangular, `D` symmetric and block diagonal, with a nonsingular 2x2 block in the columns `c, c + 1` where `two c` holds and
nonsingular 1x1 blocks elsewhere. -/
structure Spec.IsBunchKaufman (n : ℕ) (A L D : ℕ → ℕ → K) (two : ℕ → Bool) (perm : Equiv.Perm ℕ) : Prop where
  perm_lt : ∀ i < n, perm i < n
  unit : ∀ i < n, L i i = 1
  lower : ∀ i < n, ∀ j < n, i < j → L i j = 0
  two_lt : ∀ c < n, two c = true → c + 1 < n
  two_single : ∀ c, two c = true → two (c + 1) = false
  symm : ∀ i < n, ∀ j < n, D i j = D j i
  blocks : ∀ i < n, ∀ j < n, i < j → ¬ (two i = true ∧ j = i + 1) → D i j = 0
  one_ne : ∀ c < n, two c = false → (∀ c0, c = c0 + 1 → two c0 = false) → D c c ≠ 0
  two_ne : ∀ c < n, two c = true → D c c * D (c + 1) (c + 1) - D (c + 1) c * D c (c + 1) ≠ 0
  eq : ∀ i < n, ∀ j < n, A (perm i) (perm j) =
    ∑ c ∈ Finset.range n, ∑ c' ∈ Finset.range n, L i c * D c c' * L j c'

/-- The block diagonal matrix stored in the object: 1x1 blocks and diagonals of 2x2 blocks on the diagonal of the factor,
off-diagonals of 2x2 blocks in `subdiag`. -/
def Spec.storedBlocks (o : BkObj K) : ℕ → ℕ → K := fun i j =>
  if i = j then o.mat i i else if i = j + 1 then o.subdiag j else if j = i + 1 then o.subdiag i else 0

theorem matCoeff_sym (A : ℕ → ℕ → K) (k n : ℕ) : SymOn k n (matCoeff A) := by
  intro i j _ _ _ _
  rw [← symRow_lower]
  exact symRow_symm _ i j

/-- **C58**: `compute` always ends, on every matrix, and reports either success or a numerical issue. -/
theorem C58_compute_total (alpha : K) (h0 : 0 < alpha) (h1 : alpha < 1) (o : BkObj K) (n : ℕ) (A : ℕ → ℕ → K) (bs : ℕ) (hbs : 2 ≤ bs) :
    ∃ r, BkObj.compute alpha o n A bs = some r ∧ r.n = n ∧ (r.info = some true ∨ r.info = some false) := by
  obtain ⟨r, e1, e2, ⟨e3, -⟩ | ⟨e3, -⟩⟩ := bkCompute_spec alpha h0 h1 o n A bs hbs
  · exact ⟨r, e1, e2, .inl e3⟩
  · exact ⟨r, e1, e2, .inr e3⟩

/-- what a successful `compute(A)` stores, with the sequence of pivot steps -/
theorem bkCompute_holds (alpha : K) (h0 : 0 < alpha) (h1 : alpha < 1) (o : BkObj K) (n : ℕ) (A : ℕ → ℕ → K) (bs : ℕ) (hbs : 2 ≤ bs)
    (r : BkObj K) (hr : BkObj.compute alpha o n A bs = some r) (hi : r.info = some true) :
    ∃ M T D, ReflTransGen (BkOne alpha n r.piv M) (0, matCoeff A) (n, T) ∧ BkBlockDiag n r.piv M D 0 ∧ r.n = n ∧ PivPath n r.piv 0 ∧
      (∀ i, ∀ c < n, unitLow (convMat n r.piv M) i c = unitLower r.mat i c) ∧
      IsBunchKaufman n (matCoeff A) (unitLower r.mat) D (twoAt r.piv) (travPerm n r.piv 0) ∧
      ∀ i < n, ∀ j < n, ∑ c ∈ Finset.range n, D i c * storedBlocks r c j = if i = j then 1 else 0 := by
  obtain ⟨r', e1, e2, ⟨e3, M, T, hc, hm, hsd⟩ | ⟨e3, -⟩⟩ := bkCompute_spec alpha h0 h1 o n A bs hbs
  swap
  · rw [hr] at e1; obtain rfl := Option.some.inj e1; rw [hi] at e3; cases e3
  rw [hr] at e1
  obtain rfl := Option.some.inj e1
  have hp := PivPath.of_chain hc rfl
  obtain ⟨D, hD, hfac⟩ := bk_factorises hc rfl (matCoeff_sym A 0 n) trivial
  simp only at hp hfac
  have hL : ∀ i, ∀ c < n, unitLow (convMat n r.piv M) i c = unitLower r.mat i c := by
    intro i c hc
    simp only [unitLow, unitLower]
    rw [hm c hc]
  refine ⟨M, T, D, hc, hD, e2, hp, hL, ⟨?_, ?_, ?_, ?_, ?_, ?_, ?_, ?_, ?_, ?_⟩, ?_⟩
  · exact fun i hi => ((travPerm_fix hp).2 i (Nat.zero_le _) hi).2
  · exact fun i _ => by simp [unitLower]
  · exact fun i _ j _ h => by simp [unitLower, h.ne, h.not_gt]
  · exact fun c hc ht => twoAt_lt hp c hc ht
  · exact fun c ht => by simp [twoAt, ht]
  · exact fun i hi j hj => hD.sym i j (Nat.zero_le _) hi (Nat.zero_le _) hj
  · exact fun i _ j hj h h' => hD.zero i j (Nat.zero_le _) h hj h'
  · intro c hc ht hns
    refine (hD.single c (Nat.zero_le _) hc ht ?_).1
    cases c with
    | zero => trivial
    | succ c0 => exact hns c0 rfl
  · intro c hc ht
    have hc1 := twoAt_lt hp c hc ht
    rw [hD.sym c (c + 1) (Nat.zero_le _) (by omega) (Nat.zero_le _) hc1]
    exact (hD.double c (Nat.zero_le _) hc1 ht).1.ne
  · intro i hi j hj
    rw [hfac i j (Nat.zero_le _) hi (Nat.zero_le _) hj, Nat.Ico_zero_eq_range]
    refine Finset.sum_congr rfl fun c hc => Finset.sum_congr rfl fun c' hc' => ?_
    rw [hL i c (Finset.mem_range.1 hc), hL j c' (Finset.mem_range.1 hc')]
  · -- the stored blocks are the inverse of `D`
    have hdiag : ∀ c < n, r.mat c c = M c c := by
      intro c hc
      rw [hm c hc, convMat, if_neg (by omega)]
      have := (travPerm_fix (hp.next trivial c (Nat.zero_le _) hc)).1 c (by unfold nextCol; split_ifs <;> omega)
      rw [this]
    have hsub : ∀ c < n, twoAt r.piv c = false → r.subdiag c = 0 := fun c hc ht => by rw [hsd c hc, ht]; simp
    have hst : ∀ j < n, ∀ c < n, twoAt r.piv c = false → notSecond r.piv c → storedBlocks r c j = (if c = j then 1 else 0) * M c c := by
      intro j hj c hc ht hns
      unfold storedBlocks
      by_cases e : c = j
      · rw [if_pos e, if_pos e, hdiag c hc, one_mul]
      · rw [if_neg e, if_neg e, zero_mul]
        split_ifs with q1 q2
        · subst q1
          exact hsub j hj hns
        · exact hsub c hc ht
        · rfl
    intro i hi j hj
    have := blockDiag_mul hp hD (fun c => if c = j then 1 else 0) (fun c => storedBlocks r c j)
      (fun c hc ht hns => hst j hj c hc ht hns) ?_ i hi
    · exact this
    · intro c hc ht
      have hc1 := twoAt_lt hp c hc ht
      have ht1 : twoAt r.piv (c + 1) = false := by simp [twoAt, ht]
      have hs0 : r.subdiag c = M (c + 1) c := by rw [hsd c hc, if_pos ht]
      have hs1 : r.subdiag (c + 1) = 0 := hsub _ hc1 ht1
      have hprev : ∀ c0, c = c0 + 1 → r.subdiag c0 = 0 := by
        rintro c0 rfl
        refine hsub c0 (by omega) ?_
        by_contra hcon
        rw [Bool.not_eq_false] at hcon
        simp [twoAt, hcon] at ht
      simp only [storedBlocks, hdiag c hc, hdiag _ hc1]
      constructor
      · by_cases q0 : c = j
        · subst q0; simp
        · by_cases q1 : j = c + 1
          · subst q1; simp [hs0, show ¬ c = c + 1 + 1 by omega]
          · have q1' : ¬ c + 1 = j := fun h => q1 h.symm
            by_cases q2 : c = j + 1
            · simp only [if_neg q0, if_neg q1', if_pos q2, hprev j q2, zero_mul, add_zero]
            · simp [q0, q1, q1', q2]
      · by_cases q0 : c + 1 = j
        · subst q0; simp
        · by_cases q1 : c = j
          · subst q1; simp [hs0]
          · have q1' : ¬ c + 1 = j + 1 := by omega
            by_cases q2 : j = c + 1 + 1
            · simp only [if_neg q0, if_neg q1, if_neg q1', if_pos q2, hs1, zero_mul, add_zero]
            · simp [q0, q1, q1', q2]

/-- **C58**: after a successful `compute(A)` the stored unit lower triangular factor, a block diagonal `D` and a permutation
factorise the symmetric matrix whose lower half is `A`; the object stores the inverse of `D`. Both for matrices handled by the
unblocked routine and for larger ones. -/
theorem C58_factorises (alpha : K) (h0 : 0 < alpha) (h1 : alpha < 1) (o : BkObj K) (n : ℕ) (A : ℕ → ℕ → K) (bs : ℕ) (hbs : 2 ≤ bs)
    (r : BkObj K) (hr : BkObj.compute alpha o n A bs = some r) (hi : r.info = some true) :
    ∃ D two perm, IsBunchKaufman n (matCoeff A) (unitLower r.mat) D two perm ∧
      ∀ i < n, ∀ j < n, ∑ c ∈ Finset.range n, D i c * storedBlocks r c j = if i = j then 1 else 0 := by
  obtain ⟨M, T, D, -, -, -, -, -, h, h'⟩ := bkCompute_holds alpha h0 h1 o n A bs hbs r hr hi
  exact ⟨D, _, _, h, h'⟩

/-- **C58**: after a successful `compute(A)`, `solve(b)` returns the solution of the system. -/
theorem C58_solves (alpha : K) (h0 : 0 < alpha) (h1 : alpha < 1) (o : BkObj K) (n : ℕ) (A : ℕ → ℕ → K) (bs : ℕ) (hbs : 2 ≤ bs)
    (r : BkObj K) (hr : BkObj.compute alpha o n A bs = some r) (hi : r.info = some true) (b : ℕ → K) :
    ∀ i < n, ∑ j ∈ Finset.range n, matCoeff A i j * r.solve b j = b i := by
  obtain ⟨r', e1, e2, ⟨e3, M, T, hc, hm, hsd⟩ | ⟨e3, -⟩⟩ := bkCompute_spec alpha h0 h1 o n A bs hbs
  swap
  · rw [hr] at e1; obtain rfl := Option.some.inj e1; rw [hi] at e3; cases e3
  rw [hr] at e1
  obtain rfl := Option.some.inj e1
  have hp := PivPath.of_chain hc rfl
  obtain ⟨D, hD, hfac⟩ := bk_factorises hc rfl (matCoeff_sym A 0 n) trivial
  simp only at hp hfac
  set p := travPerm n r.piv 0 with hpdef
  have hL : ∀ i, ∀ c < n, unitLow (convMat n r.piv M) i c = unitLower r.mat i c := by
    intro i c hc
    simp only [unitLow, unitLower]
    rw [hm c hc]
  have hdiag : ∀ c < n, r.mat c c = M c c := by
    intro c hc
    rw [hm c hc, convMat, if_neg (by omega)]
    have := (travPerm_fix (hp.next trivial c (Nat.zero_le _) hc)).1 c (by unfold nextCol; split_ifs <;> omega)
    rw [this]
  -- the stages of the solve
  set x1 := forPivots r.n r.piv (fun k p x => swapEntries (k + 1) p x) (fun k p x => swapEntries k p x) 0 b with hx1
  set y := fwdUnit r.n r.mat x1 with hy
  set z := bkSolveD r.n r.piv r.mat r.subdiag y with hz
  set u := bwdUnit r.n r.mat z with hu
  have hsolve : r.solve b = fun i => u (p⁻¹ i) := by
    have : r.solve b = bkSolveBack r.piv n u := by
      simp only [BkObj.solve]
      rw [← hx1, ← hy, ← hz, ← hu, e2]
    rw [this, solveBack_spec hp, bkSolveBack]
    simp [hpdef]
  have hx1' : ∀ i, x1 i = b (p i) := by
    intro i
    rw [hx1, e2, solvePerm_spec hp]
  have hy' : ∀ i < n, ∑ c ∈ Finset.range n, unitLower r.mat i c * y c = b (p i) := by
    intro i hi
    have := (fwdUnit_spec r.n r.mat x1).1 i (by omega)
    rw [← hy, hx1'] at this
    rw [← this, ← Finset.sum_subset (Finset.range_subset_range.2 (show i + 1 ≤ n by omega)), Finset.sum_range_succ]
    · congr 1
      · refine Finset.sum_congr rfl fun k hk => ?_
        rw [Finset.mem_range] at hk
        simp [unitLower, hk.ne', hk]
      · simp [unitLower]
    · intro c _ hc
      rw [Finset.mem_range, not_lt] at hc
      simp [unitLower, show ¬ i = c by omega, show ¬ c < i by omega]
  have hu' : ∀ c < n, ∑ j ∈ Finset.range n, unitLower r.mat j c * u j = z c := by
    intro c hc
    have := (bwdUnit_spec r.n r.mat z).1 c (by omega)
    rw [← hu, e2] at this
    rw [← this, ← Finset.sum_range_add_sum_Ico _ (show c ≤ n by omega), Finset.sum_eq_zero, zero_add,
      Finset.sum_eq_sum_Ico_succ_bot hc, Finset.sum_Ico_eq_sum_range]
    · congr 1
      · simp [unitLower]
      · rw [show n - (c + 1) = n - 1 - c by omega]
        refine Finset.sum_congr rfl fun k _ => ?_
        simp [unitLower, show ¬ c + 1 + k = c by omega, show c < c + 1 + k by omega]
    · intro j hj
      rw [Finset.mem_range] at hj
      simp [unitLower, show ¬ j = c by omega, show ¬ c < j by omega]
  have hz' : ∀ c < n, ∑ c' ∈ Finset.range n, D c c' * z c' = y c := by
    intro c hc
    obtain ⟨-, d1, d2⟩ := bkSolveD_spec r.mat r.subdiag hp trivial y
    refine blockDiag_mul hp hD y z (fun c hc ht hns => ?_) (fun c hc ht => ?_) c hc
    · rw [← hdiag c hc, ← d1 c (Nat.zero_le _) hc ht hns, hz, e2, bkSolveD]
    · have hc1 := twoAt_lt hp c hc ht
      obtain ⟨f1, f2⟩ := d2 c (Nat.zero_le _) hc ht
      have hs0 : r.subdiag c = M (c + 1) c := by rw [hsd c hc, if_pos ht]
      rw [hs0, hdiag c hc] at f1
      rw [hs0, hdiag _ hc1] at f2
      rw [hz, e2, bkSolveD]
      exact ⟨f1, f2⟩
  -- reindexing along the permutation
  have hpl : ∀ i < n, p i < n := fun i hi => ((travPerm_fix hp).2 i (Nat.zero_le _) hi).2
  have hpi : ∀ i < n, p⁻¹ i < n := fun i hi => travPerm_inv_mem hp i hi
  have hre : ∀ f : ℕ → K, ∑ j ∈ Finset.range n, f j = ∑ j ∈ Finset.range n, f (p j) := by
    intro f
    refine Finset.sum_bij' (fun j _ => p⁻¹ j) (fun j _ => p j) ?_ ?_ ?_ ?_ ?_
    · exact fun j hj => Finset.mem_range.2 (hpi j (Finset.mem_range.1 hj))
    · exact fun j hj => Finset.mem_range.2 (hpl j (Finset.mem_range.1 hj))
    · intro j _; simp
    · intro j _; simp
    · intro j _; simp
  intro i hi
  obtain ⟨i, rfl⟩ : ∃ i', i = p i' := ⟨p⁻¹ i, by simp⟩
  have hin : i < n := by have := hpi _ hi; simpa using this
  rw [hsolve, hre]
  have hinv : ∀ j, p⁻¹ (p j) = j := fun j => by simp
  simp only [hinv]
  rw [← hy' i hin]
  calc ∑ j ∈ Finset.range n, matCoeff A (p i) (p j) * u j
      = ∑ j ∈ Finset.range n, ∑ c ∈ Finset.range n, ∑ c' ∈ Finset.range n,
          unitLower r.mat i c * D c c' * (unitLower r.mat j c' * u j) := by
        refine Finset.sum_congr rfl fun j hj => ?_
        rw [Finset.mem_range] at hj
        rw [hfac i j (Nat.zero_le _) hin (Nat.zero_le _) hj, Nat.Ico_zero_eq_range, Finset.sum_mul]
        refine Finset.sum_congr rfl fun c hc => ?_
        rw [Finset.sum_mul]
        refine Finset.sum_congr rfl fun c' hc' => ?_
        rw [hL i c (Finset.mem_range.1 hc), hL j c' (Finset.mem_range.1 hc')]
        ring
    _ = ∑ c ∈ Finset.range n, ∑ c' ∈ Finset.range n, ∑ j ∈ Finset.range n,
          unitLower r.mat i c * D c c' * (unitLower r.mat j c' * u j) := by
        rw [Finset.sum_comm]
        exact Finset.sum_congr rfl fun c _ => Finset.sum_comm
    _ = ∑ c ∈ Finset.range n, unitLower r.mat i c * y c := by
        refine Finset.sum_congr rfl fun c hc => ?_
        rw [← hz' c (Finset.mem_range.1 hc), Finset.mul_sum]
        refine Finset.sum_congr rfl fun c' hc' => ?_
        rw [← Finset.mul_sum, hu' c' (Finset.mem_range.1 hc'), mul_assoc]

/-- **C58**: success is reported exactly for the nonsingular matrices. -/
theorem C58_success_iff (alpha : K) (h0 : 0 < alpha) (h1 : alpha < 1) (o : BkObj K) (n : ℕ) (A : ℕ → ℕ → K) (bs : ℕ) (hbs : 2 ≤ bs)
    (r : BkObj K) (hr : BkObj.compute alpha o n A bs = some r) :
    r.info = some true ↔ (toMat n (matCoeff A)).det ≠ 0 := by
  constructor
  · intro hi hdet
    obtain ⟨v, hv, hv0⟩ := Matrix.exists_vecMul_eq_zero_iff.2 hdet
    apply hv
    funext k
    -- solve with the right-hand side `e_k`
    have hs := C58_solves alpha h0 h1 o n A bs hbs r hr hi fun i => if i = k then 1 else 0
    have e1 : ∑ i : Fin n, v i * ∑ j : Fin n, matCoeff A i j * r.solve (fun i => if i = k then 1 else 0) j = v k := by
      rw [Finset.sum_eq_single k]
      · have := hs k k.2
        rw [Finset.sum_range] at this
        rw [this]; simp
      · intro i _ hik
        have := hs i i.2
        rw [Finset.sum_range] at this
        rw [this, if_neg (fun h => hik (Fin.ext h)), mul_zero]
      · intro h; exact absurd (Finset.mem_univ _) h
    rw [← e1]
    simp only [Finset.mul_sum]
    rw [Finset.sum_comm]
    refine Finset.sum_eq_zero fun j _ => ?_
    have h2 : ∑ i : Fin n, v i * matCoeff A i j = 0 := congrFun hv0 j
    simp only [← mul_assoc]
    rw [← Finset.sum_mul, h2, zero_mul]
  · intro hdet
    obtain ⟨r', e1, e2, ⟨e3, -⟩ | ⟨e3, piv, M, k, T, hk, hc, hz, -⟩⟩ := bkCompute_spec alpha h0 h1 o n A bs hbs
    · rw [hr] at e1; obtain rfl := Option.some.inj e1; exact e3
    · exfalso
      obtain ⟨u, ⟨i, -, hin, hne⟩, hu⟩ := singular_of_chain hc (matCoeff_sym A 0 n) hk hz
      refine hdet (Matrix.exists_mulVec_eq_zero_iff.1 ⟨fun i => u i, fun h => hne (congrFun h ⟨i, hin⟩), ?_⟩)
      funext i
      have := hu i (Nat.zero_le _) i.2
      rw [Nat.Ico_zero_eq_range, Finset.sum_range] at this
      exact this

/-! ### examples -/

/-- the constant of the code, `(1 + sqrt 17) / 8`, is admissible -/
theorem bkAlpha_mem : 0 < (1 + Real.sqrt 17) / 8 ∧ (1 + Real.sqrt 17) / 8 < 1 := by
  have h1 : 0 ≤ Real.sqrt 17 := Real.sqrt_nonneg _
  have h2 : Real.sqrt 17 < 7 := by
    rw [Real.sqrt_lt' (by norm_num)]; norm_num
  constructor
  · positivity
  · linarith

/-- over the reals with the code's constant and block size, for every matrix -/
example (o : BkObj ℝ) (n : ℕ) (A : ℕ → ℕ → ℝ) (hA : (toMat n (matCoeff A)).det ≠ 0) (b : ℕ → ℝ) :
    ∃ r, BkObj.compute ((1 + Real.sqrt 17) / 8) o n A = some r ∧ r.info = some true ∧
      ∀ i < n, ∑ j ∈ Finset.range n, matCoeff A i j * r.solve b j = b i := by
  obtain ⟨r, e1, -, -⟩ := C58_compute_total _ bkAlpha_mem.1 bkAlpha_mem.2 o n A 32 (by omega)
  have hi := (C58_success_iff _ bkAlpha_mem.1 bkAlpha_mem.2 o n A 32 (by omega) r e1).2 hA
  exact ⟨r, e1, hi, C58_solves _ bkAlpha_mem.1 bkAlpha_mem.2 o n A 32 (by omega) r e1 hi b⟩

namespace Demo

/-- a matrix with a zero diagonal, which has no `L D L^T` factorisation with diagonal `D` -/
def bkA : ℕ → ℕ → ℚ := fun i j => if i = j then 0 else (i + j : ℕ)

/-- size 3 needs a 2x2 pivot and an interchange -/
theorem bkA_run : ∃ r, BkObj.compute (16 / 25) (BkObj.init 0) 3 bkA = some r ∧ r.info = some true ∧
    r.piv 0 = -3 ∧ r.signature 0 = [-1, 1, -1] := by
  refine exists_of_check _ _ ?_; decide +kernel

end Demo

/-! ### C57 -/

theorem bkSignature_success (alpha : K) (h0 : 0 < alpha) (h1 : alpha < 1) (o : BkObj K) (n : ℕ) (A : ℕ → ℕ → K) (bs : ℕ) (hbs : 2 ≤ bs)
    (eps : K) (r : BkObj K) (hr : BkObj.compute alpha o n A bs = some r) (hi : r.info = some true) :
    ∃ e : ℕ → K, HasInertia (toMat n (matCoeff A)) (Fintype.card {k : Fin n // 0 < e k})
        (Fintype.card {k : Fin n // e k < 0}) (Fintype.card {k : Fin n // e k = 0}) ∧
      (∀ c < n, e c ≠ 0) ∧
      ((∀ c < n, bkSignatureFn eps r c = cwiseSign (e c)) ∨
        ∃ c < n, bkSignatureFn eps r c = 0 ∧ bkDet r c < 0 ∧ |bkDet r c| ≤ eps) := by
  obtain ⟨r', e1, e2, ⟨e3, M, T, hc, hm, hsd⟩ | ⟨e3, -⟩⟩ := bkCompute_spec alpha h0 h1 o n A bs hbs
  swap
  · rw [hr] at e1; obtain rfl := Option.some.inj e1; rw [hi] at e3; cases e3
  rw [hr] at e1
  obtain rfl := Option.some.inj e1
  have hp : PivPath n r.piv 0 := PivPath.of_chain hc rfl
  obtain ⟨e, hin, htwo, hone⟩ := hasInertia_of_bk hc (matCoeff_sym A 0 n)
  have hdiag : ∀ c < n, r.mat c c = M c c := by
    intro c hc
    rw [hm c hc, convMat, if_neg (by omega)]
    have := (travPerm_fix (hp.next trivial c (Nat.zero_le _) hc)).1 c (by unfold nextCol; split_ifs <;> omega)
    rw [this]
  have hdet : ∀ c < n, twoAt r.piv c = true → bkDet r c < 0 := by
    intro c hc ht
    have hc1 := twoAt_lt hp c hc ht
    rw [bkDet, hdiag c hc, hdiag _ hc1, hsd c hc, if_pos ht]
    exact (htwo c hc ht).2.2
  refine ⟨e, hin, ?_, ?_⟩
  · intro c hc
    rcases hp.cases trivial c (Nat.zero_le _) hc with ⟨t1, t2⟩ | ⟨t1, -⟩ | ⟨c0, t1, -, t2⟩
    · exact (hone c hc t1 t2).1
    · exact (htwo c hc t1).1.ne
    · rw [t1]; exact (htwo c0 (by omega) t2).2.1.ne'
  by_cases hall : ∀ c < n, twoAt r.piv c = true → eps < |bkDet r c|
  · left
    intro c hc
    rw [bkSignatureFn_eq eps r c (by omega)]
    rcases hp.cases trivial c (Nat.zero_le _) hc with ⟨t1, t2⟩ | ⟨t1, -⟩ | ⟨c0, rfl, -, t2⟩
    · rw [byBlock_one t1 t2, hdiag c hc]
      obtain ⟨a1, a2⟩ := hone c hc t1 t2
      rw [a2]
      rcases lt_trichotomy (e c) 0 with h | h | h
      · rw [(cwiseSign_eq_neg _).2 h, (cwiseSign_eq_neg _).2 (one_div_neg.2 h)]
      · exact absurd h a1
      · rw [(cwiseSign_eq_one _).2 h, (cwiseSign_eq_one _).2 (one_div_pos.2 h)]
    · rw [(byBlock_two t1).1, if_neg (not_le.2 (hall c hc t1)), if_neg (not_lt.2 (hdet c hc t1).le), (cwiseSign_eq_neg _).2 (htwo c hc t1).1]
    · have hc0 : c0 < n := by omega
      rw [(byBlock_two t2).2, if_neg (not_le.2 (hall c0 hc0 t2)), if_neg (not_lt.2 (hdet c0 hc0 t2).le),
        (cwiseSign_eq_one _).2 (htwo c0 hc0 t2).2.1]
  · right
    push Not at hall
    obtain ⟨c, hc, ht, hle⟩ := hall
    exact ⟨c, hc, by rw [bkSignatureFn_eq eps r c (by omega), (byBlock_two ht).1, if_pos hle], hdet c hc ht, hle⟩

theorem inertiaTuple_of_signs {n : ℕ} {s : ℕ → ℤ} {e : ℕ → K} (h : ∀ c < n, s c = cwiseSign (e c)) :
    computeInertiaTuple ((List.range n).map s) = some (Fintype.card {k : Fin n // 0 < e k},
      Fintype.card {k : Fin n // e k < 0}, Fintype.card {k : Fin n // e k = 0}) := by
  rw [C26_inertia_tuple]
  refine ⟨?_, ?_, ?_, ?_⟩
  · intro x hx
    obtain ⟨k, hk, rfl⟩ := List.mem_map.1 hx
    rw [h k (List.mem_range.1 hk)]
    exact cwiseSign_entries _
  · rw [count_map_range]
    exact Fintype.card_congr (Equiv.subtypeEquivRight fun k => by rw [h k k.2, cwiseSign_eq_one])
  · rw [count_map_range]
    exact Fintype.card_congr (Equiv.subtypeEquivRight fun k => by rw [h k k.2, cwiseSign_eq_neg])
  · rw [count_map_range]
    exact Fintype.card_congr (Equiv.subtypeEquivRight fun k => by rw [h k k.2, cwiseSign_eq_zero])

/-- **C57** for Bunch-Kaufman: after a successful factorisation, a signature without zero entries has the counts of the
inertia of the matrix. -/
theorem C57_bk_inertia (alpha : K) (h0 : 0 < alpha) (h1 : alpha < 1) (o : BkObj K) (n : ℕ) (A : ℕ → ℕ → K) (bs : ℕ) (hbs : 2 ≤ bs)
    (eps : K) (r : BkObj K) (hr : BkObj.compute alpha o n A bs = some r) (hi : r.info = some true) (hz : 0 ∉ r.signature eps) :
    ∃ p q, computeInertiaTuple (r.signature eps) = some (p, q, 0) ∧ HasInertia (toMat n (matCoeff A)) p q 0 := by
  obtain ⟨r', e1, e2, -⟩ := C58_compute_total alpha h0 h1 o n A bs hbs
  rw [hr] at e1
  obtain rfl := Option.some.inj e1
  obtain ⟨e, hin, hne, hs | ⟨c, hc, hs, -⟩⟩ := bkSignature_success alpha h0 h1 o n A bs hbs eps r hr hi
  · have hcard : Fintype.card {k : Fin n // e k = 0} = 0 := by
      rw [Fintype.card_eq_zero_iff]
      exact ⟨fun k => hne k.1 k.1.2 k.2⟩
    rw [hcard] at hin
    refine ⟨_, _, ?_, hin⟩
    rw [← hcard, BkObj.signature, e2]
    exact inertiaTuple_of_signs hs
  · exfalso
    apply hz
    rw [BkObj.signature, e2]
    exact List.mem_map.2 ⟨c, List.mem_range.2 hc, hs⟩

/-- **C57** for Bunch-Kaufman: without the threshold (`eps = 0`) the signature of a successful factorisation is always the
inertia. -/
theorem C57_bk_inertia_exact (alpha : K) (h0 : 0 < alpha) (h1 : alpha < 1) (o : BkObj K) (n : ℕ) (A : ℕ → ℕ → K) (bs : ℕ) (hbs : 2 ≤ bs)
    (r : BkObj K) (hr : BkObj.compute alpha o n A bs = some r) (hi : r.info = some true) :
    ∃ p q, computeInertiaTuple (r.signature 0) = some (p, q, 0) ∧ HasInertia (toMat n (matCoeff A)) p q 0 := by
  refine C57_bk_inertia alpha h0 h1 o n A bs hbs 0 r hr hi fun hz => ?_
  obtain ⟨r', e1, e2, -⟩ := C58_compute_total alpha h0 h1 o n A bs hbs
  rw [hr] at e1
  obtain rfl := Option.some.inj e1
  obtain ⟨e, hin, hne, hs | ⟨c, hc, hs, hd, hle⟩⟩ := bkSignature_success alpha h0 h1 o n A bs hbs 0 r hr hi
  · rw [BkObj.signature, e2] at hz
    obtain ⟨c, hc, hzc⟩ := List.mem_map.1 hz
    rw [List.mem_range] at hc
    rw [hs c hc, cwiseSign_eq_zero] at hzc
    exact hne c hc hzc
  · exact absurd (abs_nonpos_iff.1 hle) hd.ne

theorem checkInertia_ok {ndx nc : ℕ} {s : List ℤ} (h : checkInertia ndx nc s = some .ok) :
    computeInertiaTuple s = some (ndx, nc, 0) := by
  rw [checkInertia] at h
  cases ht : computeInertiaTuple s with
  | none => rw [ht] at h; cases h
  | some t =>
    obtain ⟨p, q, z⟩ := t
    rw [ht, Option.map_some] at h
    by_cases a1 : p = ndx <;> by_cases a2 : q = nc <;> by_cases a3 : z = 0 <;> simp [a1, a2, a3] at h
    subst a1 a2 a3
    rfl

theorem zero_notMem_of_tuple {s : List ℤ} {p q : ℕ} (h : computeInertiaTuple s = some (p, q, 0)) : 0 ∉ s := by
  have := ((C26_inertia_tuple s p q 0).1 h).2.2.2
  exact List.count_eq_zero.1 this.symm

/-- **C57** for Bunch-Kaufman: if the factorisation succeeded and the solver's check accepts its signature, the matrix has the
wanted inertia, whatever the threshold. -/
theorem C57_bk_verdict (alpha : K) (h0 : 0 < alpha) (h1 : alpha < 1) (o : BkObj K) (ndx nc : ℕ) (A : ℕ → ℕ → K) (bs : ℕ) (hbs : 2 ≤ bs)
    (eps : K) (r : BkObj K) (hr : BkObj.compute alpha o (ndx + nc) A bs = some r) (hi : r.info = some true)
    (hok : checkInertia ndx nc (r.signature eps) = some .ok) : HasInertia (toMat (ndx + nc) (matCoeff A)) ndx nc 0 := by
  have ht := checkInertia_ok hok
  obtain ⟨p, q, e1, e2⟩ := C57_bk_inertia alpha h0 h1 o _ A bs hbs eps r hr hi (zero_notMem_of_tuple ht)
  rw [ht] at e1
  obtain ⟨rfl, rfl, -⟩ : ndx = p ∧ nc = q ∧ True := by
    have := Option.some.inj e1
    simp only [Prod.mk.injEq] at this
    exact ⟨this.1, this.2.1, trivial⟩
  exact e2

/-- **C57** for Bunch-Kaufman: for matrices up to the block size the check is also sound without looking at `info()` (which
the solver does not): a failed factorisation leaves a zero in the signature. -/
theorem C57_bk_verdict_small (alpha : K) (h0 : 0 < alpha) (h1 : alpha < 1) (o : BkObj K) (ndx nc : ℕ) (A : ℕ → ℕ → K) (bs : ℕ) (hbs : 2 ≤ bs)
    (hn : ndx + nc ≤ bs) (eps : K) (r : BkObj K) (hr : BkObj.compute alpha o (ndx + nc) A bs = some r)
    (hok : checkInertia ndx nc (r.signature eps) = some .ok) :
    r.info = some true ∧ HasInertia (toMat (ndx + nc) (matCoeff A)) ndx nc 0 := by
  have hi : r.info = some true := by
    obtain ⟨r', e1, e2, ⟨e3, -⟩ | ⟨e3, piv, M, k, T, hk, hc, hz, hsmall⟩⟩ := bkCompute_spec alpha h0 h1 o (ndx + nc) A bs hbs
    · rw [hr] at e1; obtain rfl := Option.some.inj e1; exact e3
    · rw [hr] at e1
      obtain rfl := Option.some.inj e1
      exfalso
      obtain ⟨a1, a2, a3⟩ := hsmall hn
      refine zero_notMem_of_tuple (checkInertia_ok hok) ?_
      rw [BkObj.signature, e2]
      refine List.mem_map.2 ⟨k, List.mem_range.2 hk, ?_⟩
      have hns : notSecond r.piv k := by
        have hc' : ReflTransGen (BkOne alpha (ndx + nc) r.piv M) (0, matCoeff A) (k, T) :=
          chain_congr hc (fun c _ h => (a1 c (by simp only at h; omega)).symm) fun _ _ _ _ _ _ => rfl
        exact chain_notSecond hc' trivial
      have ht : twoAt r.piv k = false := by rw [twoAt_of_notSecond hns, a3]; simp
      rw [bkSignatureFn_eq eps r k (by omega), byBlock_one ht hns, a2]
      simp [cwiseSign]
  exact ⟨hi, C57_bk_verdict alpha h0 h1 o ndx nc A bs hbs eps r hr hi hok⟩

/-- the hypotheses are met by a matrix with a zero diagonal -/
example : HasInertia (toMat 3 (matCoeff Demo.bkA)) 1 2 0 := by
  obtain ⟨r, h1, -, -, h4⟩ := Demo.bkA_run
  refine (C57_bk_verdict_small (16 / 25) (by norm_num) (by norm_num) (BkObj.init 0) 1 2 Demo.bkA 32 (by omega) (by omega) 0 r h1 ?_).2
  rw [h4]; decide

namespace Demo

/-- `[[0, t], [t, 0]]` with `t = 10^9` -/
def bkBig : ℕ → ℕ → ℚ := fun i j => if i = j then 0 else 1000000000

/-- `[[1, 1], [1, 1]]` and `-1` in the other 31 diagonal entries -/
def bkSing : ℕ → ℕ → ℚ := fun i j => if i < 2 ∧ j < 2 then 1 else if i = j then -1 else 0

end Demo

/-- **C57, negative**: with the threshold of the code (machine epsilon, on the determinant of the inverse block) the signature
of a successfully factorised nonsingular matrix of inertia (1, 1, 0) is `(0, 0)`. -/
theorem C57_bk_threshold_false : ∃ A : ℕ → ℕ → ℚ, ∃ r, BkObj.compute (16 / 25) (BkObj.init 0) 2 A = some r ∧ r.info = some true ∧
    computeInertiaTuple (r.signature (1 / 2 ^ 52)) = some (0, 0, 2) ∧ HasInertia (toMat 2 (matCoeff A)) 1 1 0 := by
  have hrun : ∃ r, BkObj.compute (16 / 25) (BkObj.init 0) 2 Demo.bkBig = some r ∧
      (r.info = some true ∧ computeInertiaTuple (r.signature (1 / 2 ^ 52)) = some (0, 0, 2) ∧ checkInertia 1 1 (r.signature 0) = some .ok) := by
    refine exists_of_check _ _ ?_; decide +kernel
  obtain ⟨r, h1, h2, h3, h4⟩ := hrun
  exact ⟨_, r, h1, h2, h3, C57_bk_verdict (16 / 25) (by norm_num) (by norm_num) _ 1 1 _ 32 (by omega) 0 r h1 h2 h4⟩

/-- **C57, negative**: above the block size a failed factorisation leaves no zero in the signature: the solver's check accepts
a singular matrix of size 33 (it does not look at `info()`). -/
theorem C57_bk_blocked_false : ∃ A : ℕ → ℕ → ℚ, ∃ r, BkObj.compute (16 / 25) (BkObj.init 0) 33 A = some r ∧ r.info = some false ∧
    checkInertia 2 31 (r.signature (1 / 2 ^ 52)) = some .ok ∧ (toMat 33 (matCoeff A)).det = 0 := by
  have hrun : ∃ r, BkObj.compute (16 / 25) (BkObj.init 0) 33 Demo.bkSing = some r ∧
      (r.info = some false ∧ checkInertia 2 31 (r.signature (1 / 2 ^ 52)) = some .ok) := by
    refine exists_of_check _ _ ?_; decide +kernel
  obtain ⟨r, h1, h2, h3⟩ := hrun
  refine ⟨_, r, h1, h2, h3, ?_⟩
  by_contra hdet
  rw [(C58_success_iff (16 / 25) (by norm_num) (by norm_num) _ _ _ 32 (by omega) r h1).2 hdet] at h2
  cases h2

end ProxNLP
