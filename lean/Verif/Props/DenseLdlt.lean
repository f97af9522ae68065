import Verif.Lemmas.DenseLdlt
import Verif.Props.BlockKind
import Mathlib.Tactic.NormNum

/-! Property theorems for C55, C56, C78: dense LDLT factorisation, solve, reconstruction, reported sign. -/

set_option linter.unusedSectionVars false
namespace ProxNLP

open Spec

variable {K : Type} [Field K] [LinearOrder K]

/-- **C55**: `compute(A)` factorises the symmetric matrix given by the lower half of `A`, at every size (unblocked and
recursive): with `L` the unit lower triangular part of the result and `D` its diagonal, `L D L^T = A`, provided no pivot that
is divided by is zero. -/
theorem C55_factorises (o : DenseObj K) (n : ℕ) (A : ℕ → ℕ → K)
    (hp : ∀ k, k + 1 < n → (o.compute n A).vectorD k ≠ 0) :
    IsLDL n (matCoeff A) (unitLower (o.compute n A).mat) (o.compute n A).vectorD :=
  (denseLdlt_spec n A o.sign hp).1.isLDL hp

theorem IsLDL.unique {n : ℕ} {A L L' : ℕ → ℕ → K} {d d' : ℕ → K} (h : IsLDL n A L d) (h' : IsLDL n A L' d') :
    (∀ k < n, d k = d' k) ∧ ∀ i < n, ∀ j < n, L i j = L' i j := by
  have key : ∀ j < n, (∀ k ≤ j, d k = d' k) ∧ ∀ i < n, ∀ k ≤ j, L i k = L' i k := by
    intro j
    induction j using Nat.strong_induction_on with
    | _ j ih =>
      intro hj
      have hd : ∀ k < j, d k = d' k := fun k hk => (ih k hk (by omega)).1 k le_rfl
      have hL : ∀ i < n, ∀ k < j, L i k = L' i k := fun i hi k hk => (ih k hk (by omega)).2 i hi k le_rfl
      have hsum : ∀ i < n, ∑ k ∈ Finset.range j, L i k * d k * L j k = ∑ k ∈ Finset.range j, L' i k * d' k * L' j k := by
        intro i hi
        refine Finset.sum_congr rfl fun k hk => ?_
        rw [Finset.mem_range] at hk
        rw [hd k hk, hL i hi k hk, hL j hj k hk]
      have e : ∀ i < n, L i j * d j = L' i j * d' j := by
        intro i hi
        have h1 := h.entry i j hi hj
        have h2 := h'.entry i j hi hj
        rw [h1, hsum i hi] at h2
        exact add_left_cancel h2
      have hdj : d j = d' j := by
        have := e j hj
        rwa [h.unit j hj, h'.unit j hj, one_mul, one_mul] at this
      refine ⟨fun k hk => ?_, fun i hi k hk => ?_⟩
      · rcases hk.lt_or_eq with h3 | h3
        · exact hd k h3
        · rw [h3]; exact hdj
      · rcases hk.lt_or_eq with h3 | h3
        · exact hL i hi k h3
        · subst h3
          rcases lt_trichotomy i k with h4 | h4 | h4
          · rw [h.lower i hi k hj h4, h'.lower i hi k hj h4]
          · rw [h4, h.unit k hj, h'.unit k hj]
          · have := e i hi
            rw [hdj] at this
            exact mul_right_cancel₀ (h'.pivots k (by omega)) this
  exact ⟨fun k hk => (key k hk).1 k le_rfl, fun i hi j hj => (key j hj).2 i hi j le_rfl⟩

/-- forward substitution and elimination on a matrix that has a factorisation reproduce that factorisation -/
theorem ldltUnblocked_unique (n : ℕ) (A L : ℕ → ℕ → K) (d : ℕ → K) (s : SignMat) (h : IsLDL n (matCoeff A) L d) :
    ∀ c < n, (ldltUnblocked n A s).1 c c = d c ∧ ∀ i < n, c < i → (ldltUnblocked n A s).1 i c = L i c := by
  have hs := (ldltUnblocked_spec n A s).1
  generalize (ldltUnblocked n A s).1 = M at *
  intro c
  induction c using Nat.strong_induction_on with
  | _ c ih =>
    intro hc
    have hsum : ∀ i < n, c ≤ i → ∑ k ∈ Finset.range c, M i k * M k k * M c k = ∑ k ∈ Finset.range c, L i k * d k * L c k := by
      intro i hi hci
      refine Finset.sum_congr rfl fun k hk => ?_
      rw [Finset.mem_range] at hk
      rw [(ih k hk (by omega)).1, (ih k hk (by omega)).2 i hi (by omega), (ih k hk (by omega)).2 c hc hk]
    have hcc : M c c = d c := by
      have h1 := hs.1 c hc
      have h2 := h.entry c c hc hc
      simp only [matCoeff] at h2
      rw [if_pos le_rfl, h1, hsum c hc le_rfl, h.unit c hc, one_mul] at h2
      exact add_left_cancel h2
    refine ⟨hcc, fun i hi hci => ?_⟩
    have hne : d c ≠ 0 := h.pivots c (by omega)
    have h1 := hs.2 c hc (by rw [hcc]; exact hne) i hi hci
    have h2 := h.entry i c hi hc
    simp only [matCoeff] at h2
    rw [if_pos (by omega), h1, hsum i hi (by omega), hcc] at h2
    exact mul_right_cancel₀ hne (add_left_cancel h2)

/-- the blocked recursion reproduces the factorisation too -/
theorem denseLdlt_unique (n : ℕ) (A L : ℕ → ℕ → K) (d : ℕ → K) (s : SignMat) (h : IsLDL n (matCoeff A) L d) :
    ∀ c < n, (denseLdlt n A s).1 c c = d c ∧ ∀ i < n, c < i → (denseLdlt n A s).1 i c = L i c := by
  -- pivots are nonzero, by induction along the recursion
  have hpiv : ∀ k, k + 1 < n → (denseLdlt n A s).1 k k ≠ 0 := by
    induction n using Nat.strong_induction_on generalizing A L d s with
    | _ n ih =>
      rw [denseLdlt]
      by_cases hn : n ≤ 128
      · rw [dif_pos hn]
        intro k hk
        rw [(ldltUnblocked_unique n A L d s h k (by omega)).1]
        exact h.pivots k hk
      · rw [dif_neg hn]
        simp only
        obtain ⟨bs, hbs⟩ : ∃ bs, bs = (n + 1) / 2 := ⟨_, rfl⟩
        rw [← hbs]
        have hb3 : bs < n := by omega
        have h0 : IsLDL bs (matCoeff A) L d := by
          refine ⟨fun i hi => h.unit i (by omega), fun i hi j hj => h.lower i (by omega) j (by omega),
            fun k hk => h.pivots k (by omega), fun i hi j hj => ?_⟩
          rw [h.eq i (by omega) j (by omega)]
          symm
          apply Finset.sum_subset (Finset.range_mono (by omega))
          intro k hk hk'
          rw [Finset.mem_range] at hk hk'
          rw [h.lower i (by omega) k hk (by omega), zero_mul, zero_mul]
        have ih0 := ih bs hb3 A L d s h0
        have sp0 := (denseLdlt_spec bs A s ih0).1
        have un0 := IsLDL.unique (sp0.isLDL ih0) h0
        have r00 : ∀ i < bs, ∀ c < bs, c < i → (denseLdlt bs A s).1 i c = L i c := by
          intro i hi c hc hci
          rw [← un0.2 i hi c hc]
          simp only [unitLower]
          rw [if_neg (by omega), if_pos hci]
        generalize hr0 : denseLdlt bs A s = r0 at *
        set A1 := writeDiagBlock 0 bs A r0.1 with hA1
        set A2 := ldltSchur n bs (ldltScaleBlock n bs (ldltCopy n bs (solveRight n bs A1))) with hA2
        have a1_00 : ∀ i < bs, ∀ c < bs, A1 i c = r0.1 i c := by
          intro i hi c hc
          simp only [hA1, writeDiagBlock]
          rw [if_pos (by omega)]
          rfl
        have a1_out : ∀ i c, bs ≤ i ∨ bs ≤ c → A1 i c = A i c := by
          intro i c h
          simp only [hA1, writeDiagBlock]
          rw [if_neg (by omega)]
        have hfw : ∀ i, bs ≤ i → i < n → ∀ c < bs, fwdUnit bs A1 (fun c => A1 i c) c = L i c * d c := by
          intro i hi hin c
          induction c using Nat.strong_induction_on with
          | _ c ihc =>
            intro hc
            have h1 := (fwdUnit_spec bs A1 fun c => A1 i c).1 c hc
            have h2 := h.entry i c hin (by omega)
            simp only [matCoeff] at h2
            rw [if_pos (by omega)] at h2
            rw [a1_out _ _ (Or.inl hi), h2] at h1
            have h3 : ∑ k ∈ Finset.range c, A1 c k * fwdUnit bs A1 (fun c => A1 i c) k =
                ∑ k ∈ Finset.range c, L i k * d k * L c k := by
              refine Finset.sum_congr rfl fun k hk => ?_
              rw [Finset.mem_range] at hk
              rw [ihc k hk (by omega), a1_00 c hc k (by omega), r00 c hc k (by omega) hk]
              ring
            rw [h3] at h1
            exact add_left_cancel h1
        have m10 : ∀ i, bs ≤ i → i < n → ∀ c < bs,
            ldltScaleBlock n bs (ldltCopy n bs (solveRight n bs A1)) i c = L i c := by
          intro i hi hin c hc
          simp only [ldltScaleBlock, ldltCopy, solveRight]
          rw [if_pos (by omega), if_neg (by omega), if_pos (by omega), if_neg (by omega), if_neg (by omega), a1_00 c hc c hc,
            hfw i hi hin c hc, un0.1 c hc, mul_assoc, mul_one_div_cancel (h.pivots c (by omega)), mul_one]
        have a2_11 : ∀ i, bs ≤ i → i < n → ∀ c, bs ≤ c → c ≤ i → A2 i c = A i c - ∑ k ∈ Finset.range bs, L i k * d k * L c k := by
          intro i hi hin c hc hci
          simp only [hA2, ldltSchur]
          rw [if_pos ⟨hc, hci, hin⟩]
          congr 1
          · simp only [ldltScaleBlock, ldltCopy, solveRight]
            rw [if_neg (by omega), if_neg (by omega), if_neg (by omega), a1_out i c (Or.inl hi)]
          · refine Finset.sum_congr rfl fun k hk => ?_
            rw [Finset.mem_range] at hk
            rw [m10 i hi hin k hk]
            simp only [ldltScaleBlock, ldltCopy, solveRight]
            rw [if_neg (by omega), if_pos (by omega), if_pos (by omega), hfw c (by omega) (by omega) k hk]
            ring
        have h1 : IsLDL (n - bs) (matCoeff fun i c => A2 (bs + i) (bs + c)) (fun i j => L (bs + i) (bs + j)) (fun k => d (bs + k)) := by
          have hh := h
          rw [show n = bs + (n - bs) from by omega] at hh
          have hsch := hh.schur
          refine ⟨hsch.unit, hsch.lower, hsch.pivots, fun i hi j hj => ?_⟩
          rw [← hsch.eq i hi j hj]
          simp only [matCoeff, schur]
          by_cases hji : j ≤ i
          · rw [if_pos hji, if_pos (by omega), a2_11 _ (by omega) (by omega) _ (by omega) (by omega)]
          · rw [if_neg hji, if_neg (by omega), a2_11 _ (by omega) (by omega) _ (by omega) (by omega)]
            congr 1
            exact Finset.sum_congr rfl fun k _ => by ring
        have ih1 := ih (n - bs) (by omega) _ _ _ r0.2 h1
        intro k hk
        by_cases hkb : k < bs
        · have : writeDiagBlock bs (n - bs) A2 (denseLdlt (n - bs) (fun i c => A2 (bs + i) (bs + c)) r0.2).1 k k = r0.1 k k := by
            simp only [hA2, hA1, writeDiagBlock, ldltSchur, ldltScaleBlock, ldltCopy, solveRight]
            rw [if_neg (by omega), if_neg (by omega), if_neg (by omega), if_neg (by omega), if_neg (by omega), if_pos (by omega)]
            rfl
          rw [this, un0.1 k hkb]
          exact h.pivots k hk
        · have : writeDiagBlock bs (n - bs) A2 (denseLdlt (n - bs) (fun i c => A2 (bs + i) (bs + c)) r0.2).1 k k =
              (denseLdlt (n - bs) (fun i c => A2 (bs + i) (bs + c)) r0.2).1 (k - bs) (k - bs) := by
            simp only [writeDiagBlock]
            rw [if_pos (by omega)]
          rw [this]
          exact ih1 (k - bs) (by omega)
  have un := IsLDL.unique ((denseLdlt_spec n A s hpiv).1.isLDL hpiv) h
  intro c hc
  refine ⟨un.1 c hc, fun i hi hci => ?_⟩
  rw [← un.2 i hi c hc]
  simp only [unitLower]
  rw [if_neg (by omega), if_pos hci]

/-- **C55**: the condition "no zero pivot" is a property of the matrix: if the matrix has an `L D L^T` factorisation with
nonzero pivots then `compute` meets no zero pivot and finds exactly that factorisation. -/
theorem C55_finds_factorisation (o : DenseObj K) (n : ℕ) (A L : ℕ → ℕ → K) (d : ℕ → K) (h : IsLDL n (matCoeff A) L d) :
    (∀ k < n, (o.compute n A).vectorD k = d k) ∧ (∀ i < n, ∀ j < n, unitLower (o.compute n A).mat i j = L i j) := by
  have := denseLdlt_unique n A L d o.sign h
  refine ⟨fun k hk => (this k hk).1, fun i hi j hj => ?_⟩
  simp only [unitLower]
  split
  · rename_i e; subst e; rw [h.unit i hi]
  · split
    · exact (this j hj).2 i hi (by omega)
    · rw [h.lower i hi j hj (by omega)]

/-- The solve in factored form: `x` with `Lᵀ x = z`, `z` being the scaled solution `y` of `L y = b`. -/
theorem denseSolve_factored (tiny : K) (o : DenseObj K) (b : ℕ → K) :
    ∃ y : ℕ → K, (∀ i < o.n, ∑ k ∈ Finset.range o.n, unitLower o.mat i k * y k = b i) ∧
      ∀ k < o.n, ∑ j ∈ Finset.range o.n, unitLower o.mat j k * o.solve tiny b j =
        if tiny < |o.vectorD k| then y k / o.vectorD k else 0 := by
  set n := o.n with hn
  set M := o.mat with hM
  set y := fwdUnit n M b with hy
  set z := scaleByD tiny M y with hz
  set x := bwdUnit n M z with hx
  have hs : o.solve tiny b = x := rfl
  have f1 := (fwdUnit_spec n M b).1
  have f2 := (bwdUnit_spec n M z).1
  rw [← hy] at f1
  rw [← hx] at f2
  have hU : ∀ k < n, ∑ j ∈ Finset.range n, unitLower M j k * x j = z k := by
    intro k hk
    rw [← f2 k hk]
    have e : n = (k + 1) + (n - 1 - k) := by omega
    conv_lhs => rw [e]
    rw [Finset.sum_range_add, Finset.sum_range_succ]
    have z1 : ∑ j ∈ Finset.range k, unitLower M j k * x j = 0 := by
      apply Finset.sum_eq_zero
      intro j hj
      rw [Finset.mem_range] at hj
      simp only [unitLower]
      rw [if_neg (by omega), if_neg (by omega), zero_mul]
    have z2 : unitLower M k k = 1 := by simp [unitLower]
    rw [z1, z2, zero_add, one_mul]
    congr 1
    refine Finset.sum_congr rfl fun j hj => ?_
    simp only [unitLower]
    rw [if_neg (by omega), if_pos (by omega)]
  have hL : ∀ i < n, ∑ k ∈ Finset.range n, unitLower M i k * y k = b i := by
    intro i hi
    rw [← f1 i hi]
    have e : n = (i + 1) + (n - 1 - i) := by omega
    conv_lhs => rw [e]
    rw [Finset.sum_range_add, Finset.sum_range_succ]
    have z1 : ∑ j ∈ Finset.range (n - 1 - i), unitLower M i (i + 1 + j) * y (i + 1 + j) = 0 := by
      apply Finset.sum_eq_zero
      intro j hj
      simp only [unitLower]
      rw [if_neg (by omega), if_neg (by omega), zero_mul]
    have z2 : unitLower M i i = 1 := by simp [unitLower]
    rw [z1, z2, add_zero, one_mul]
    congr 1
    refine Finset.sum_congr rfl fun j hj => ?_
    rw [Finset.mem_range] at hj
    simp only [unitLower]
    rw [if_neg (by omega), if_pos (by omega)]
  exact ⟨y, hL, fun k hk => by rw [hs, hU k hk]; rfl⟩

/-- `L D Lᵀ x` summed by columns. -/
theorem isLDL_mul (n : ℕ) (A L : ℕ → ℕ → K) (d x : ℕ → K) (h : IsLDL n A L d) (i : ℕ) (hi : i < n) :
    ∑ j ∈ Finset.range n, A i j * x j =
      ∑ k ∈ Finset.range n, L i k * (d k * ∑ j ∈ Finset.range n, L j k * x j) := by
  have : ∀ j ∈ Finset.range n, A i j * x j = ∑ k ∈ Finset.range n, L i k * d k * (L j k * x j) := by
    intro j hj
    rw [Finset.mem_range] at hj
    rw [h.eq i hi j hj, Finset.sum_mul]
    exact Finset.sum_congr rfl fun k _ => by ring
  rw [Finset.sum_congr rfl this, Finset.sum_comm]
  refine Finset.sum_congr rfl fun k _ => ?_
  rw [← Finset.mul_sum, mul_assoc]

/-- **C55**: solving with the factorisation returns the solution of the original system, when the pivots exceed the
threshold below which the solver zeroes the component. -/
theorem C55_solves (tiny : K) (o : DenseObj K) (A : ℕ → ℕ → K)
    (h : IsLDL o.n A (unitLower o.mat) o.vectorD) (hd : ∀ k < o.n, tiny < |o.vectorD k|) (hd0 : ∀ k < o.n, o.vectorD k ≠ 0) (b : ℕ → K) :
    ∀ i < o.n, ∑ j ∈ Finset.range o.n, A i j * o.solve tiny b j = b i := by
  obtain ⟨y, hL, hU⟩ := denseSolve_factored tiny o b
  intro i hi
  rw [isLDL_mul _ _ _ _ _ h i hi, ← hL i hi]
  refine Finset.sum_congr rfl fun k hk => ?_
  rw [Finset.mem_range] at hk
  rw [hU k hk, if_pos (hd k hk), mul_div_cancel₀ _ (hd0 k hk)]

/-- **C55, singular matrices**: with pivots that are either zero or above the threshold, solving returns a solution of
every system that has one, and the component of `Lᵀ x` belonging to a zero pivot is zero. -/
theorem C55_solves_singular [IsStrictOrderedRing K] (tiny : K) (o : DenseObj K) (A : ℕ → ℕ → K)
    (h : IsLDL o.n A (unitLower o.mat) o.vectorD) (h0 : 0 ≤ tiny)
    (hd : ∀ k < o.n, o.vectorD k = 0 ∨ tiny < |o.vectorD k|) (b x' : ℕ → K)
    (hb : ∀ i < o.n, ∑ j ∈ Finset.range o.n, A i j * x' j = b i) :
    (∀ i < o.n, ∑ j ∈ Finset.range o.n, A i j * o.solve tiny b j = b i) ∧
      ∀ k < o.n, o.vectorD k = 0 → ∑ j ∈ Finset.range o.n, unitLower o.mat j k * o.solve tiny b j = 0 := by
  obtain ⟨y, hL, hU⟩ := denseSolve_factored tiny o b
  have hz : ∀ k < o.n, o.vectorD k = 0 →
      ∑ j ∈ Finset.range o.n, unitLower o.mat j k * o.solve tiny b j = 0 := by
    intro k hk e
    rw [hU k hk, if_neg (by rw [e, abs_zero]; exact not_lt.mpr h0)]
  refine ⟨fun i hi => ?_, hz⟩
  -- `y` is unique, so it is `D Lᵀ x'`
  have hy : ∀ k, k < o.n → y k = o.vectorD k * ∑ j ∈ Finset.range o.n, unitLower o.mat j k * x' j := by
    intro k
    induction k using Nat.strong_induction_on with
    | _ k ih =>
      intro hk
      have e1 := hL k hk
      rw [← hb k hk, isLDL_mul _ _ _ _ _ h k hk, ← sub_eq_zero, ← Finset.sum_sub_distrib] at e1
      rw [Finset.sum_eq_single k] at e1
      · have e2 : unitLower o.mat k k = 1 := by simp [unitLower]
        rw [e2, one_mul, one_mul, sub_eq_zero] at e1
        exact e1
      · intro l hl hlk
        rw [Finset.mem_range] at hl
        rcases Nat.lt_or_gt_of_ne hlk with hlt | hgt
        · rw [ih l hlt hl, sub_self]
        · have : unitLower o.mat k l = 0 := by
            simp only [unitLower]
            rw [if_neg (by omega), if_neg (by omega)]
          rw [this]; ring
      · intro hn
        exact absurd (Finset.mem_range.mpr hk) hn
  rw [isLDL_mul _ _ _ _ _ h i hi, ← hL i hi]
  refine Finset.sum_congr rfl fun k hk => ?_
  rw [Finset.mem_range] at hk
  rcases hd k hk with e | e
  · rw [hy k hk, e]; ring
  · rw [hU k hk, if_pos e, mul_div_cancel₀ _ (fun e0 => by
      rw [e0, abs_zero] at e; exact absurd e (not_lt.mpr h0))]

/-- **C55**: `reconstructedMatrix()` returns the factorised matrix. -/
theorem C55_reconstructs (o : DenseObj K) (A : ℕ → ℕ → K) (h : IsLDL o.n A (unitLower o.mat) o.vectorD) :
    ∀ i < o.n, ∀ j < o.n, o.reconstruct i j = A i j := by
  intro i hi j hj
  rw [h.eq i hi j hj]
  simp only [DenseObj.reconstruct, denseReconstruct, DenseObj.vectorD]
  refine Finset.sum_congr rfl fun k _ => ?_
  have : ∑ l ∈ Finset.range o.n, unitLower o.mat l k * (if l = j then (1 : K) else 0) = unitLower o.mat j k := by
    simp [Finset.sum_ite_eq', hj]
  rw [this]
  ring

namespace Demo

/-- a 3 x 3 indefinite matrix, given by its lower half -/
def ldltA : ℕ → ℕ → ℚ := fun i j => if i = j then (if i = 2 then -1 else 2) else if i = 1 ∧ j = 0 then 1 else if i = 2 ∧ j = 1 then 3 else 0

end Demo

/-- the hypotheses are met, and the solve is exact on an indefinite matrix -/
example : (∀ k < 3, ((DenseObj.init 3 : DenseObj ℚ).compute 3 Demo.ldltA).vectorD k ≠ 0) ∧
    (∀ k < 3, (1 / 1000 : ℚ) < |((DenseObj.init 3 : DenseObj ℚ).compute 3 Demo.ldltA).vectorD k|) := by
  decide +kernel

/-- a singular matrix with a zero last pivot: the hypotheses of `C55_solves_singular` are met -/
example : IsLDL 2 (matCoeff fun _ _ => (1 : ℚ)) (unitLower ((DenseObj.init 2 : DenseObj ℚ).compute 2 fun _ _ => 1).mat)
      ((DenseObj.init 2 : DenseObj ℚ).compute 2 fun _ _ => 1).vectorD ∧
    ((DenseObj.init 2 : DenseObj ℚ).compute 2 fun _ _ => 1).vectorD 1 = 0 ∧
    ∀ k < 2, ((DenseObj.init 2 : DenseObj ℚ).compute 2 fun _ _ => 1).vectorD k = 0 ∨
      (1 / 1000 : ℚ) < |((DenseObj.init 2 : DenseObj ℚ).compute 2 fun _ _ => 1).vectorD k| :=
  ⟨C55_factorises _ 2 _ (by
    have h : ∀ k < 1, ((DenseObj.init 2 : DenseObj ℚ).compute 2 fun _ _ => 1).vectorD k ≠ 0 := by decide +kernel
    exact fun k hk => h k (by omega)), by decide +kernel, by decide +kernel⟩

end ProxNLP
