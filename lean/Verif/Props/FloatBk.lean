import Verif.Lemmas.FloatBk
import Verif.Props.FloatLdlt

/-! Property theorems for C123 (the Bunch-Kaufman solve in rounded arithmetic). -/

set_option linter.unusedSectionVars false
namespace ProxNLP

open Spec

variable {K : Type} [Field K] [LinearOrder K] [IsStrictOrderedRing K]

/-- **C123**: the solve in rounded arithmetic, whatever the order of the sums. In each row, taken in the order of the pivots, the
residual is at most `12 d u (|L| |D| |Lᵀ| |x|)`, where `d` is the largest number of roundings a term of a sum goes through. -/
theorem C123_residual (R : Rounding K) (hR : R.eta = 0) (q : BkOrders) (d : ℕ) (o : BkObj K) (hq : BkOrdersSum q o.n d)
    (hs : 50 * (d * R.u) ≤ 1) (A D : ℕ → ℕ → K) (h : HoldsFactors o A D) (hd : DominantBlocks o D) (b : ℕ → K) :
    let p := travPerm o.n o.piv 0
    ∀ i < o.n, |b (p i) - ∑ j ∈ Finset.range o.n, A (p i) j * o.flSolve R q b j| ≤
      12 * (d * R.u) * ∑ j ∈ Finset.range o.n, absBk o D i j * |o.flSolve R q b (p j)| := by
  intro p i hi
  obtain ⟨c1, c2, c3⟩ := bk_coeff_small R hs
  have main := flBk_stages R hR hq h hd c1 c2 (fun i => b (p i)) i hi
  set u := flBwdUnit R q.bwd o.n o.mat
    (flBkSolveD R q.diag o.n o.piv o.mat o.subdiag (flFwdUnit R q.fwd o.n o.mat fun i => b (p i))) with hu
  have hsolve : o.flSolve R q b = fun i => u (p⁻¹ i) := by
    have e : forPivots o.n o.piv (fun k p x => swapEntries (k + 1) p x) (fun k p x => swapEntries k p x) 0 b = fun i => b (p i) :=
      funext fun i => solvePerm_spec h.pivots b i
    simp only [BkObj.flSolve]
    rw [e, ← hu, solveBack_spec h.pivots, bkSolveBack]
    simp [p]
  have hre : ∀ f : ℕ → K, ∑ j ∈ Finset.range o.n, f j = ∑ j ∈ Finset.range o.n, f (p j) := by
    intro f
    refine Finset.sum_bij' (fun j _ => p⁻¹ j) (fun j _ => p j) ?_ ?_ ?_ ?_ ?_
    · exact fun j hj => Finset.mem_range.2 (travPerm_inv_mem h.pivots j (Finset.mem_range.1 hj))
    · exact fun j hj => Finset.mem_range.2 (h.factor.perm_lt j (Finset.mem_range.1 hj))
    · intro j _; simp
    · intro j _; simp
    · intro j _; simp
  have hinv : ∀ j, p⁻¹ (p j) = j := fun j => by simp
  rw [hre fun j => A (p i) j * o.flSolve R q b j]
  simp only [hsolve, hinv]
  have e : ∑ j ∈ Finset.range o.n, A (p i) (p j) * u j = ∑ j ∈ Finset.range o.n, (∑ k ∈ Finset.range o.n, ∑ k' ∈ Finset.range o.n,
      unitLower o.mat i k * D k k' * unitLower o.mat j k') * u j :=
    Finset.sum_congr rfl fun j hj => by rw [h.factor.eq i hi j (Finset.mem_range.1 hj)]
  rw [e]
  refine main.trans (mul_le_mul_of_nonneg_right c3 ?_)
  exact Finset.sum_nonneg fun j _ => mul_nonneg
    (Finset.sum_nonneg fun _ _ => Finset.sum_nonneg fun _ _ => by positivity) (abs_nonneg _)

/-- **C123**: without rounding errors it is the solve of C58. -/
theorem C123_exact (q : BkOrders) (d : ℕ) (o : BkObj K) (hq : BkOrdersSum q o.n d) (A D : ℕ → ℕ → K) (h : HoldsFactors o A D)
    (hd : DominantBlocks o D) (R : Rounding K) (hR : R.eta = 0) (hu : R.u = 0) (b : ℕ → K) :
    ∀ i < o.n, ∑ j ∈ Finset.range o.n, A i j * o.flSolve R q b j = b i := by
  intro i hi
  have hp : travPerm o.n o.piv 0 ((travPerm o.n o.piv 0)⁻¹ i) = i := by simp
  have := C123_residual R hR q d o hq (by rw [hu]; simp) A D h hd b ((travPerm o.n o.piv 0)⁻¹ i) (travPerm_inv_mem h.pivots i hi)
  rw [hp, hu, mul_zero, mul_zero, zero_mul] at this
  exact (sub_eq_zero.1 (abs_nonpos_iff.1 this)).symm

namespace Demo

/-- a 2x2 block with an interchange and a 1x1 block -/
def bkO : BkObj ℚ where
  n := 3
  mat := fun i j => if i = 2 ∧ j = 0 then 1 / 3 else if i = 2 ∧ j = 1 then 1 / 5 else if i = 2 ∧ j = 2 then 1 / 7
    else if i = 1 ∧ j = 1 then -1 / 3 else 0
  subdiag := fun k => if k = 0 then 1 / 3 else 0
  piv := fun k => if k = 2 then 2 else -3
  info := some true

/-- the inverse of its blocks -/
def bkD : ℕ → ℕ → ℚ := fun i j => if i = 0 ∧ j = 0 then 3 else if i + j = 1 then 3 else if i = 2 ∧ j = 2 then 7 else 0

/-- the matrix it stands for -/
def bkOA : ℕ → ℕ → ℚ := fun i j =>
  ∑ c ∈ Finset.range 3, ∑ c' ∈ Finset.range 3, unitLower bkO.mat (Equiv.swap 1 2 i) c * bkD c c' * unitLower bkO.mat (Equiv.swap 1 2 j) c'

theorem bkO_perm : travPerm 3 bkO.piv 0 = Equiv.swap 1 2 := by
  rw [travPerm_two (p := 2) (by decide) (by decide) (by decide), travPerm_one (p := 2) (by decide) (by decide) (by decide), travPerm_done]
  simp
  rfl

/-- terms added from left to right -/
def bkSeq : BkOrders where
  fwd i := seqTree i
  bwd i := seqTree (2 - i)
  diag _ := .fma 0 (.prod 1)

theorem bkSeq_sum : BkOrdersSum bkSeq 3 2 where
  pos := by decide
  fwd := by unfold SumsTo; decide
  bwd := by unfold SumsTo; decide
  diag := by decide

theorem bkO_holds : HoldsFactors bkO bkOA bkD where
  pivots := .two 0 2 (by decide) (by decide) (by decide) (by decide) (.one 2 2 (by decide) (by decide) (by decide) .done)
  factor := by
    show IsBunchKaufman 3 bkOA (unitLower bkO.mat) bkD (twoAt bkO.piv) (travPerm 3 bkO.piv 0)
    rw [bkO_perm]
    refine ⟨by decide +kernel, by decide +kernel, by decide +kernel, by decide +kernel, fun c ht => ?_, by decide +kernel, ?_, ?_,
      by decide +kernel, fun i _ j _ => ?_⟩
    · simp [twoAt, ht]
    · decide +kernel
    · intro c hc ht hns
      rcases c with _ | _ | _ | c
      · revert ht; decide
      · exact absurd (hns 0 rfl) (by decide)
      · decide +kernel
      · omega
    · simp only [bkOA, Equiv.swap_apply_self]
  inverse := by decide +kernel

theorem bkO_dominant : DominantBlocks bkO bkD := by unfold DominantBlocks; decide +kernel

/-- every operation rounds up by the factor `101 / 100` -/
def upRounding : Rounding ℚ where
  rnd x := 101 / 100 * x
  u := 1 / 100
  eta := 0
  u_nonneg := by norm_num
  u_lt_one := by norm_num
  eta_nonneg := le_rfl
  err x := by
    rw [show 101 / 100 * x - x = 1 / 100 * x by ring, abs_mul, add_zero]
    norm_num

/-- one 2x2 block that is nearly singular -/
def bkBad : BkObj ℚ where
  n := 2
  mat := fun i j => if i = j then 1 else 0
  subdiag := fun k => if k = 0 then 999 / 1000 else 0
  piv := fun _ => -2
  info := some true

/-- its inverse -/
def bkBadD : ℕ → ℕ → ℚ := fun i j => if i = j then 1000000 / 1999 else -999000 / 1999

def bkSeq2 : BkOrders where
  fwd i := seqTree i
  bwd i := seqTree (1 - i)
  diag _ := .fma 0 (.prod 1)

end Demo

/-- for the object of the examples and doubles without underflow -/
example (b : ℕ → ℚ) :
    let p : Equiv.Perm ℕ := Equiv.swap 1 2
    ∀ i < 3, |b (p i) - ∑ j ∈ Finset.range 3, Demo.bkOA (p i) j * Demo.bkO.flSolve (bitsRounding 53 (by norm_num)) Demo.bkSeq b j| ≤
      12 * ((2 : ℕ) * (1 / 2) ^ 53) * ∑ j ∈ Finset.range 3, absBk Demo.bkO Demo.bkD i j *
        |Demo.bkO.flSolve (bitsRounding 53 (by norm_num)) Demo.bkSeq b (p j)| := by
  rw [← Demo.bkO_perm]
  exact C123_residual (bitsRounding 53 (by norm_num)) rfl Demo.bkSeq 2 Demo.bkO Demo.bkSeq_sum
    (by show 50 * (((2 : ℕ) : ℚ) * (1 / 2) ^ 53) ≤ 1; norm_num) Demo.bkOA Demo.bkD Demo.bkO_holds Demo.bkO_dominant b

/-- its matrix has one zero entry -/
example : ∀ i < 3, ∀ j < 3, i ≠ j ∨ i ≠ 2 → Demo.bkOA i j ≠ 0 := by decide +kernel

/-- **C123**: the bound needs the off-diagonal entries to dominate: for a nearly singular 2x2 block it fails. -/
theorem C123_dominance_needed : ∃ (R : Rounding ℚ) (q : BkOrders) (d : ℕ) (o : BkObj ℚ) (A D : ℕ → ℕ → ℚ) (b : ℕ → ℚ),
    R.eta = 0 ∧ BkOrdersSum q o.n d ∧ 50 * (d * R.u) ≤ 1 ∧ HoldsFactors o A D ∧
    ¬ ∀ i < o.n, |b (travPerm o.n o.piv 0 i) - ∑ j ∈ Finset.range o.n, A (travPerm o.n o.piv 0 i) j * o.flSolve R q b j| ≤
      12 * (d * R.u) * ∑ j ∈ Finset.range o.n, absBk o D i j * |o.flSolve R q b (travPerm o.n o.piv 0 j)| := by
  refine ⟨Demo.upRounding, Demo.bkSeq2, 2, Demo.bkBad, Demo.bkBadD, Demo.bkBadD, fun i => if i = 0 then 1 else -1, rfl, ?_, by decide +kernel,
    ⟨.two 0 1 (by decide) (by decide) (by decide) (by decide) .done, ?_, by decide +kernel⟩, ?_⟩
  · exact ⟨by decide, by unfold SumsTo; decide, by unfold SumsTo; decide, by decide⟩
  · refine ⟨by decide +kernel, by decide +kernel, by decide +kernel, by decide +kernel, fun c ht => by simp [twoAt, ht], by decide +kernel,
      by decide +kernel, ?_, by decide +kernel, by decide +kernel⟩
    intro c hc ht hns
    rcases c with _ | _ | c
    · revert ht; decide
    · exact absurd (hns 0 rfl) (by decide)
    · exact absurd hc (by show ¬ c + 2 < 2; omega)
  · intro hcon
    have := hcon 0 (by decide)
    revert this
    decide +kernel

end ProxNLP
