import Verif.Lemmas.Signature
import Verif.Props.DenseLdlt
import Verif.Props.Inertia
import Verif.Props.KktInertia
import Mathlib.Logic.Equiv.Fin.Basic
import Mathlib.Algebra.BigOperators.Field

/-! Property theorems for C55 (compute then solve), C56 (reported sign), C57 (signature of the LDLT is the inertia),
C78 (quasi-definite matrices). -/

set_option linter.unusedSectionVars false
namespace ProxNLP

open Spec

variable {K : Type} [Field K] [LinearOrder K] [IsStrictOrderedRing K]

/-- **C55**: `compute(A)` then `solve(b)` on a matrix that has an `L D L^T` factorisation with pivots above the threshold
returns the solution, whatever was factorised before. Only the lower half of `A` matters. -/
theorem C55_compute_solve (tiny : K) (ht : 0 ≤ tiny) (o : DenseObj K) (n : ℕ) (A L : ℕ → ℕ → K) (d b : ℕ → K)
    (h : IsLDL n (matCoeff A) L d) (hd : ∀ k < n, tiny < |d k|) :
    ∀ i < n, ∑ j ∈ Finset.range n, matCoeff A i j * (o.compute n A).solve tiny b j = b i := by
  obtain ⟨h1, h2⟩ := C55_finds_factorisation o n A L d h
  have hI : IsLDL n (matCoeff A) (unitLower (o.compute n A).mat) (o.compute n A).vectorD :=
    C55_factorises o n A fun k hk => by rw [h1 k (by omega)]; exact h.pivots k hk
  refine C55_solves tiny (o.compute n A) (matCoeff A) hI (fun k hk => ?_) (fun k hk => ?_) b
  · rw [h1 k hk]; exact hd k hk
  · rw [h1 k hk]
    intro h0
    have := hd k hk
    rw [h0, abs_zero] at this
    exact absurd this (not_lt.2 ht)

namespace Demo

theorem ldltA_isLDL : IsLDL 3 (matCoeff ldltA) (unitLower ((DenseObj.init 3 : DenseObj ℚ).compute 3 ldltA).mat)
    ((DenseObj.init 3 : DenseObj ℚ).compute 3 ldltA).vectorD :=
  C55_factorises _ 3 ldltA fun k hk => (by decide +kernel : ∀ k < 2, ((DenseObj.init 3 : DenseObj ℚ).compute 3 ldltA).vectorD k ≠ 0) k (by omega)

end Demo

/-- the hypotheses are met by an indefinite matrix -/
example (b : ℕ → ℚ) : ∀ i < 3, ∑ j ∈ Finset.range 3,
    matCoeff Demo.ldltA i j * ((DenseObj.init 0 : DenseObj ℚ).compute 3 Demo.ldltA).solve (1 / 1000) b j = b i :=
  C55_compute_solve _ (by norm_num) _ 3 _ _ _ b Demo.ldltA_isLDL (by decide +kernel)

/-- **C55, negative**: the factorisation reports success on a matrix that has no `L D L^T` factorisation with nonzero pivots,
and the following solve then returns a wrong answer (in the C++ code, after a division by zero). -/
theorem C55_info_false : ∃ A : ℕ → ℕ → ℚ, ((DenseObj.init 2 : DenseObj ℚ).compute 2 A).info = some true ∧
    (¬ ∃ L d, IsLDL 2 (matCoeff A) L d) ∧ ((DenseObj.init 2 : DenseObj ℚ).compute 2 A).vectorD 0 = 0 := by
  refine ⟨fun i j => if i = j then 0 else 1, rfl, ?_, by decide +kernel⟩
  rintro ⟨L, d, h⟩
  have h0 := h.entry 0 0 (by omega) (by omega)
  simp only [matCoeff, Finset.range_zero, Finset.sum_empty, zero_add, h.unit 0 (by omega), one_mul] at h0
  exact h.pivots 0 (by omega) (by simpa using h0.symm)

/-! ### C57 -/

/-- **C57** for LDLT: the counts derived from the signs of `D` are the inertia of the factorised matrix. -/
theorem C57_ldlt_inertia (o : DenseObj K) (n : ℕ) (A : ℕ → ℕ → K) (hp : ∀ k, k + 1 < n → (o.compute n A).vectorD k ≠ 0) :
    ∃ p q z, computeInertiaTuple (o.compute n A).signature = some (p, q, z) ∧ HasInertia (toMat n (matCoeff A)) p q z := by
  have h := IsLDL.hasInertia (C55_factorises o n A hp)
  refine ⟨_, _, _, ?_, h⟩
  rw [C26_inertia_tuple]
  refine ⟨?_, ?_, ?_, ?_⟩
  · intro s hs
    obtain ⟨k, -, rfl⟩ := List.mem_map.1 hs
    exact cwiseSign_entries _
  · rw [DenseObj.signature, count_map_range]
    exact Fintype.card_congr (Equiv.subtypeEquivRight fun k => (cwiseSign_eq_one _).symm)
  · rw [DenseObj.signature, count_map_range]
    exact Fintype.card_congr (Equiv.subtypeEquivRight fun k => (cwiseSign_eq_neg _).symm)
  · rw [DenseObj.signature, count_map_range]
    exact Fintype.card_congr (Equiv.subtypeEquivRight fun k => (cwiseSign_eq_zero _).symm)

/-- **C57** for LDLT: the inertia check of the solver accepts exactly the matrices of the wanted inertia. -/
theorem C57_ldlt_verdict (o : DenseObj K) (ndx nc : ℕ) (A : ℕ → ℕ → K)
    (hp : ∀ k, k + 1 < ndx + nc → (o.compute (ndx + nc) A).vectorD k ≠ 0) :
    checkInertia ndx nc (o.compute (ndx + nc) A).signature = some .ok ↔ HasInertia (toMat (ndx + nc) (matCoeff A)) ndx nc 0 := by
  obtain ⟨p, q, z, h1, h2⟩ := C57_ldlt_inertia o (ndx + nc) A hp
  rw [checkInertia, h1, Option.map_some]
  constructor
  · intro h
    by_cases a1 : p = ndx <;> by_cases a2 : q = nc <;> by_cases a3 : z = 0 <;> simp [a1, a2, a3] at h
    subst a1 a2 a3
    exact h2
  · intro h
    obtain ⟨rfl, rfl, rfl⟩ := HasInertia.unique h h2
    simp

example : computeInertiaTuple ((DenseObj.init 3 : DenseObj ℚ).compute 3 Demo.ldltA).signature = some (2, 1, 0) := by
  decide +kernel

/-! ### C56 -/

/-- The reported sign describes the matrix. -/
def Spec.Classifies (n : ℕ) (A : ℕ → ℕ → K) : SignMat → Prop
  | .posSemi => (∀ v, 0 ≤ quad (toMat n A) v) ∧ ∃ v, 0 < quad (toMat n A) v
  | .negSemi => (∀ v, quad (toMat n A) v ≤ 0) ∧ ∃ v, quad (toMat n A) v < 0
  | .zeroSign => ∀ v, quad (toMat n A) v = 0
  | .indefinite => (∃ v, 0 < quad (toMat n A) v) ∧ ∃ v, quad (toMat n A) v < 0

theorem signFold_sound (s : SignMat) (d : ℕ → K) (j : ℕ) :
    (signFold s d j = .posSemi → ∀ k < j, 0 ≤ d k) ∧ (signFold s d j = .negSemi → ∀ k < j, d k ≤ 0) ∧
    (signFold s d j = .zeroSign → ∀ k < j, d k = 0) := by
  induction j with
  | zero => exact ⟨fun _ k hk => by omega, fun _ k hk => by omega, fun _ k hk => by omega⟩
  | succ j ih =>
    obtain ⟨i1, i2, i3⟩ := ih
    have split : ∀ (P : ℕ → Prop), (∀ k < j, P k) → P j → ∀ k < j + 1, P k := by
      intro P h1 h2 k hk
      rcases Nat.lt_succ_iff_lt_or_eq.1 hk with h | h
      · exact h1 k h
      · exact h ▸ h2
    rw [signFold]
    cases hs : signFold s d j with
    | posSemi =>
      simp only [updateSign]
      refine ⟨fun h => split _ (i1 hs) ?_, fun h => ?_, fun h => ?_⟩
      · by_contra hc; rw [if_pos (not_le.1 hc)] at h; cases h
      · split_ifs at h
      · split_ifs at h
    | negSemi =>
      simp only [updateSign]
      refine ⟨fun h => ?_, fun h => split _ (i2 hs) ?_, fun h => ?_⟩
      · split_ifs at h
      · by_contra hc; rw [if_pos (not_le.1 hc)] at h; cases h
      · split_ifs at h
    | zeroSign =>
      simp only [updateSign]
      refine ⟨fun h => ?_, fun h => ?_, fun h => ?_⟩
      · refine split _ (fun k hk => (i3 hs k hk).ge) ?_
        split_ifs at h with h1
        exact h1.le
      · refine split _ (fun k hk => (i3 hs k hk).le) ?_
        split_ifs at h with h1 h2
        exact h2.le
      · refine split _ (i3 hs) ?_
        split_ifs at h with h1 h2
        exact le_antisymm (not_lt.1 h1) (not_lt.1 h2)
    | indefinite => simp [updateSign]

theorem signFold_complete (d : ℕ → K) (j : ℕ) :
    (signFold .zeroSign d j = .posSemi → ∃ k < j, 0 < d k) ∧ (signFold .zeroSign d j = .negSemi → ∃ k < j, d k < 0) ∧
    (signFold .zeroSign d j = .indefinite → (∃ k < j, 0 < d k) ∧ ∃ k < j, d k < 0) := by
  induction j with
  | zero => simp [signFold]
  | succ j ih =>
    obtain ⟨i1, i2, i3⟩ := ih
    have up : ∀ (P : ℕ → Prop), (∃ k < j, P k) → ∃ k < j + 1, P k := by
      rintro P ⟨k, hk, h⟩; exact ⟨k, by omega, h⟩
    rw [signFold]
    cases hs : signFold SignMat.zeroSign d j with
    | posSemi =>
      simp only [updateSign]
      refine ⟨fun _ => up _ (i1 hs), fun h => ?_, fun h => ⟨up _ (i1 hs), ?_⟩⟩
      · split_ifs at h
      · split_ifs at h with h1
        exact ⟨j, by omega, h1⟩
    | negSemi =>
      simp only [updateSign]
      refine ⟨fun h => ?_, fun _ => up _ (i2 hs), fun h => ⟨?_, up _ (i2 hs)⟩⟩
      · split_ifs at h
      · split_ifs at h with h1
        exact ⟨j, by omega, h1⟩
    | zeroSign =>
      simp only [updateSign]
      refine ⟨fun h => ?_, fun h => ?_, fun h => ?_⟩
      · split_ifs at h with h1
        exact ⟨j, by omega, h1⟩
      · split_ifs at h with h1 h2
        exact ⟨j, by omega, h2⟩
      · split_ifs at h
    | indefinite =>
      simp only [updateSign]
      exact ⟨fun h => (by cases h), fun h => (by cases h), fun _ => ⟨up _ (i3 hs).1, up _ (i3 hs).2⟩⟩

/-- each pivot is a value of the quadratic form -/
theorem IsLDL.exists_quad {n : ℕ} {A L : ℕ → ℕ → K} {d : ℕ → K} (h : IsLDL n A L d) (k : ℕ) (hk : k < n) :
    ∃ v, quad (toMat n A) v = d k := by
  have hinj := transposeMap_inj n L h.unit h.lower
  obtain ⟨v, hv⟩ := (LinearMap.injective_iff_surjective.1 hinj) (Pi.single ⟨k, hk⟩ 1)
  refine ⟨v, ?_⟩
  rw [quad_ldl n A L d h.eq, hv, Finset.sum_eq_single ⟨k, hk⟩]
  · simp
  · intro i _ hi
    rw [Pi.single_eq_of_ne hi]; simp
  · intro hc; exact absurd (Finset.mem_univ _) hc

theorem compute_sign (o : DenseObj K) (n : ℕ) (A : ℕ → ℕ → K) (hp : ∀ k, k + 1 < n → (o.compute n A).vectorD k ≠ 0) :
    (o.compute n A).sign = if n ≤ 1 then signFold .zeroSign (o.compute n A).vectorD n else
      signFold o.sign (o.compute n A).vectorD n := by
  split_ifs with hn
  · have e : denseLdlt n A o.sign = (A, if n = 0 then .zeroSign else if 0 < A 0 0 then .posSemi else if A 0 0 < 0 then .negSemi else .zeroSign) := by
      rw [denseLdlt, dif_pos (by omega), ldltUnblocked, if_pos hn]
    simp only [DenseObj.compute, DenseObj.vectorD, e]
    rcases Nat.le_one_iff_eq_zero_or_eq_one.1 hn with rfl | rfl
    · rfl
    · rfl
  · exact (denseLdlt_spec n A o.sign hp).2 (by omega)

/-- **C56 (partial)**: on a factorisation object used for the first time, `sign()` after `compute(A)` classifies `A` (and for
matrices of size at most one, always). Missing: later calls on the same object, for which the property is false
(`C56_sign_false`). -/
theorem C56_fresh_partial (m n : ℕ) (A : ℕ → ℕ → K)
    (hp : ∀ k, k + 1 < n → ((DenseObj.init m : DenseObj K).compute n A).vectorD k ≠ 0) :
    Classifies n (matCoeff A) ((DenseObj.init m : DenseObj K).compute n A).sign := by
  set o := (DenseObj.init m : DenseObj K) with ho
  have hL := C55_factorises o n A hp
  have hs : (o.compute n A).sign = signFold .zeroSign (o.compute n A).vectorD n := by
    rw [compute_sign o n A hp]
    split_ifs <;> rfl
  have h1 := signFold_sound .zeroSign (o.compute n A).vectorD n
  have h2 := signFold_complete (o.compute n A).vectorD n
  rw [hs]
  cases hc : signFold .zeroSign (o.compute n A).vectorD n with
  | posSemi =>
    obtain ⟨k, hk, hd⟩ := h2.1 hc
    obtain ⟨v, hv⟩ := IsLDL.exists_quad hL k hk
    refine ⟨fun w => ?_, v, by rw [hv]; exact hd⟩
    rw [quad_ldl _ _ _ _ hL.eq]
    exact Finset.sum_nonneg fun k _ => mul_nonneg (h1.1 hc k k.2) (sq_nonneg _)
  | negSemi =>
    obtain ⟨k, hk, hd⟩ := h2.2.1 hc
    obtain ⟨v, hv⟩ := IsLDL.exists_quad hL k hk
    refine ⟨fun w => ?_, v, by rw [hv]; exact hd⟩
    rw [quad_ldl _ _ _ _ hL.eq]
    exact Finset.sum_nonpos fun k _ => mul_nonpos_of_nonpos_of_nonneg (h1.2.1 hc k k.2) (sq_nonneg _)
  | zeroSign =>
    intro w
    rw [quad_ldl _ _ _ _ hL.eq]
    exact Finset.sum_eq_zero fun k _ => by rw [h1.2.2 hc k k.2, zero_mul]
  | indefinite =>
    obtain ⟨⟨k, hk, hd⟩, ⟨l, hl, hdl⟩⟩ := h2.2.2 hc
    obtain ⟨v, hv⟩ := IsLDL.exists_quad hL k hk
    obtain ⟨w, hw⟩ := IsLDL.exists_quad hL l hl
    exact ⟨⟨v, by rw [hv]; exact hd⟩, ⟨w, by rw [hw]; exact hdl⟩⟩

/-- **C56 (partial)**: whatever the history of the object, a report of semi-definiteness is correct for the last matrix. -/
theorem C56_semidefinite_sound_partial (o : DenseObj K) (n : ℕ) (A : ℕ → ℕ → K)
    (hp : ∀ k, k + 1 < n → (o.compute n A).vectorD k ≠ 0) :
    ((o.compute n A).sign = .posSemi → ∀ v, 0 ≤ quad (toMat n (matCoeff A)) v) ∧
    ((o.compute n A).sign = .negSemi → ∀ v, quad (toMat n (matCoeff A)) v ≤ 0) ∧
    ((o.compute n A).sign = .zeroSign → ∀ v, quad (toMat n (matCoeff A)) v = 0) := by
  have hL := C55_factorises o n A hp
  have hs : ∃ s, (o.compute n A).sign = signFold s (o.compute n A).vectorD n := by
    rw [compute_sign o n A hp]
    split_ifs
    · exact ⟨_, rfl⟩
    · exact ⟨_, rfl⟩
  obtain ⟨s, hs⟩ := hs
  have h1 := signFold_sound s (o.compute n A).vectorD n
  rw [hs]
  refine ⟨fun hc w => ?_, fun hc w => ?_, fun hc w => ?_⟩ <;> rw [quad_ldl _ _ _ _ hL.eq]
  · exact Finset.sum_nonneg fun k _ => mul_nonneg (h1.1 hc k k.2) (sq_nonneg _)
  · exact Finset.sum_nonpos fun k _ => mul_nonpos_of_nonpos_of_nonneg (h1.2.1 hc k k.2) (sq_nonneg _)
  · exact Finset.sum_eq_zero fun k _ => by rw [h1.2.2 hc k k.2, zero_mul]

/-- **C56, negative**: after factorising the identity, factorising its opposite reports an indefinite matrix. -/
theorem C56_sign_false : ∃ A B : ℕ → ℕ → ℚ,
    (((DenseObj.init 2 : DenseObj ℚ).compute 2 A).compute 2 B).sign = .indefinite ∧
    (∀ v, quad (toMat 2 (matCoeff B)) v ≤ 0) ∧
    ¬ Classifies 2 (matCoeff B) (((DenseObj.init 2 : DenseObj ℚ).compute 2 A).compute 2 B).sign := by
  have h1 : (((DenseObj.init 2 : DenseObj ℚ).compute 2 fun i j => if i = j then 1 else 0).compute 2
      fun i j => if i = j then -1 else 0).sign = .indefinite := by decide +kernel
  have h2 : ∀ v, quad (toMat 2 (matCoeff fun i j => if i = j then (-1 : ℚ) else 0)) v ≤ 0 := by
    intro v
    simp [quad, toMat, matCoeff, Fin.sum_univ_two]
    nlinarith [sq_nonneg (v 0), sq_nonneg (v 1)]
  refine ⟨_, _, h1, h2, ?_⟩
  rw [h1]
  rintro ⟨⟨v, hv⟩, -⟩
  exact absurd hv (not_lt.2 (h2 v))

/-! ### C78 -/

/-- A symmetric matrix is quasi-definite for a sign pattern: its form is positive definite on the vectors supported on the
indices marked `true` and negative definite on those supported on the others. -/
structure Spec.QuasiDefinite (n : ℕ) (A : ℕ → ℕ → K) (s : ℕ → Bool) : Prop where
  symm : ∀ i < n, ∀ j < n, A i j = A j i
  pos : ∀ v : Fin n → K, (∀ i : Fin n, s i = false → v i = 0) → v ≠ 0 → 0 < quad (toMat n A) v
  neg : ∀ v : Fin n → K, (∀ i : Fin n, s i = true → v i = 0) → v ≠ 0 → quad (toMat n A) v < 0

theorem quad_cons (n : ℕ) (A : ℕ → ℕ → K) (hs : ∀ i < n + 1, ∀ j < n + 1, A i j = A j i) (h0 : A 0 0 ≠ 0) (x : K) (v : Fin n → K) :
    quad (toMat (n + 1) A) (Fin.cons x v) =
      A 0 0 * (x + (∑ j : Fin n, A (j + 1) 0 * v j) / A 0 0) ^ 2 +
      quad (toMat n fun i j => A (i + 1) (j + 1) - A (i + 1) 0 * A (j + 1) 0 / A 0 0) v := by
  simp only [quad, toMat, Matrix.of_apply, Fin.sum_univ_succ, Fin.cons_zero, Fin.cons_succ, Fin.val_zero, Fin.val_succ]
  have e1 : ∑ j : Fin n, A 0 (j + 1) * v j = ∑ j : Fin n, A (j + 1) 0 * v j :=
    Finset.sum_congr rfl fun j _ => by rw [hs 0 (by omega) (j + 1) (by omega)]
  have e2 : ∑ i : Fin n, v i * (A (i + 1) 0 * x + ∑ j : Fin n, A (i + 1) (j + 1) * v j) =
      x * ∑ j : Fin n, A (j + 1) 0 * v j + ∑ i : Fin n, v i * ∑ j : Fin n, A (i + 1) (j + 1) * v j := by
    rw [Finset.mul_sum, ← Finset.sum_add_distrib]
    exact Finset.sum_congr rfl fun i _ => by ring
  have e3 : ∑ i : Fin n, v i * ∑ j : Fin n, (A (i + 1) (j + 1) - A (i + 1) 0 * A (j + 1) 0 / A 0 0) * v j =
      ∑ i : Fin n, v i * ∑ j : Fin n, A (i + 1) (j + 1) * v j - (∑ j : Fin n, A (j + 1) 0 * v j) ^ 2 / A 0 0 := by
    have : ∀ i : Fin n, v i * ∑ j : Fin n, (A (i + 1) (j + 1) - A (i + 1) 0 * A (j + 1) 0 / A 0 0) * v j =
        v i * ∑ j : Fin n, A (i + 1) (j + 1) * v j - A (i + 1) 0 * v i * (∑ j : Fin n, A (j + 1) 0 * v j) / A 0 0 := by
      intro i
      have : ∑ j : Fin n, (A (i + 1) (j + 1) - A (i + 1) 0 * A (j + 1) 0 / A 0 0) * v j =
          ∑ j : Fin n, A (i + 1) (j + 1) * v j - A (i + 1) 0 / A 0 0 * ∑ j : Fin n, A (j + 1) 0 * v j := by
        rw [Finset.mul_sum, ← Finset.sum_sub_distrib]
        exact Finset.sum_congr rfl fun j _ => by ring
      rw [this]; ring
    rw [Finset.sum_congr rfl fun i _ => this i, Finset.sum_sub_distrib, pow_two, ← Finset.sum_div, ← Finset.sum_mul]
  rw [e1, e2, e3]
  field_simp
  ring

/-- **C78**: every symmetric quasi-definite matrix has an `L D L^T` factorisation, with positive pivots at the indices marked
`true` and negative pivots at the others. -/
theorem C78_factorisation_exists (n : ℕ) (A : ℕ → ℕ → K) (s : ℕ → Bool) (h : QuasiDefinite n A s) :
    ∃ L d, IsLDL n A L d ∧ ∀ k < n, if s k then 0 < d k else d k < 0 := by
  induction n generalizing A s with
  | zero =>
    exact ⟨fun _ _ => 0, fun _ => 0, ⟨fun i hi => by omega, fun i hi => by omega, fun k hk => by omega, fun i hi => by omega⟩,
      fun k hk => by omega⟩
  | succ n ih =>
    have q0 : quad (toMat (n + 1) A) (Fin.cons 1 0) = A 0 0 := by
      simp [quad, toMat, Fin.sum_univ_succ]
    have ne0 : (Fin.cons (1 : K) (0 : Fin n → K) : Fin (n + 1) → K) ≠ 0 := by
      intro hc; have := congrFun hc 0; simp at this
    have a00 : if s 0 then 0 < A 0 0 else A 0 0 < 0 := by
      cases hs : s 0 with
      | true =>
        simp only [if_true]
        rw [← q0]
        refine h.pos _ (fun i hi => ?_) ne0
        refine Fin.cases (fun hi => ?_) (fun i hi => ?_) i hi
        · simp [hs] at hi
        · simp
      | false =>
        simp only [Bool.false_eq_true, if_false]
        rw [← q0]
        refine h.neg _ (fun i hi => ?_) ne0
        refine Fin.cases (fun hi => ?_) (fun i hi => ?_) i hi
        · simp [hs] at hi
        · simp
    have hne : A 0 0 ≠ 0 := by
      split_ifs at a00
      · exact a00.ne'
      · exact a00.ne
    have hq : QuasiDefinite n (fun i j => A (i + 1) (j + 1) - A (i + 1) 0 * A (j + 1) 0 / A 0 0) (fun i => s (i + 1)) := by
      refine ⟨fun i hi j hj => ?_, fun v hv hvne => ?_, fun v hv hvne => ?_⟩
      · rw [h.symm (i + 1) (by omega) (j + 1) (by omega), mul_comm (A (i + 1) 0)]
      · have nz : ∀ x, (Fin.cons x v : Fin (n + 1) → K) ≠ 0 := by
          intro x hc
          apply hvne
          funext i
          have := congrFun hc i.succ
          simpa using this
        cases hs : s 0 with
        | true =>
          have := h.pos (Fin.cons (-((∑ j : Fin n, A (j + 1) 0 * v j) / A 0 0)) v) (fun i hi => by
            refine Fin.cases (fun hi => ?_) (fun i hi => ?_) i hi
            · simp [hs] at hi
            · exact hv i hi) (nz _)
          rw [quad_cons n A h.symm hne] at this
          simpa using this
        | false =>
          have := h.pos (Fin.cons 0 v) (fun i hi => by
            refine Fin.cases (fun hi => ?_) (fun i hi => ?_) i hi
            · simp
            · exact hv i hi) (nz _)
          rw [quad_cons n A h.symm hne] at this
          rw [hs] at a00
          have a00' : A 0 0 < 0 := by simpa using a00
          have h2 := mul_nonpos_of_nonpos_of_nonneg a00'.le (sq_nonneg (0 + (∑ j : Fin n, A (j + 1) 0 * v j) / A 0 0))
          linarith
      · have nz : ∀ x, (Fin.cons x v : Fin (n + 1) → K) ≠ 0 := by
          intro x hc
          apply hvne
          funext i
          have := congrFun hc i.succ
          simpa using this
        cases hs : s 0 with
        | false =>
          have := h.neg (Fin.cons (-((∑ j : Fin n, A (j + 1) 0 * v j) / A 0 0)) v) (fun i hi => by
            refine Fin.cases (fun hi => ?_) (fun i hi => ?_) i hi
            · simp [hs] at hi
            · exact hv i hi) (nz _)
          rw [quad_cons n A h.symm hne] at this
          simpa using this
        | true =>
          have := h.neg (Fin.cons 0 v) (fun i hi => by
            refine Fin.cases (fun hi => ?_) (fun i hi => ?_) i hi
            · simp
            · exact hv i hi) (nz _)
          rw [quad_cons n A h.symm hne] at this
          rw [hs] at a00
          have a00' : 0 < A 0 0 := by simpa using a00
          have h2 := mul_nonneg a00'.le (sq_nonneg (0 + (∑ j : Fin n, A (j + 1) 0 * v j) / A 0 0))
          linarith
    obtain ⟨L, d, hL, hd⟩ := ih _ _ hq
    refine ⟨fun i j => if j = 0 then A i 0 / A 0 0 else if i = 0 then 0 else L (i - 1) (j - 1),
      fun k => if k = 0 then A 0 0 else d (k - 1), ⟨?_, ?_, ?_, ?_⟩, ?_⟩
    · intro i hi
      rcases i with _ | i
      · simp [hne]
      · simpa using hL.unit i (by omega)
    · intro i hi j hj hij
      rcases j with _ | j
      · omega
      · rcases i with _ | i
        · simp
        · simpa using hL.lower i (by omega) j (by omega) (by omega)
    · intro k hk
      rcases k with _ | k
      · simpa using hne
      · simpa using hL.pivots k (by omega)
    · intro i hi j hj
      rw [Finset.sum_range_succ']
      simp only [if_true, Nat.add_eq_zero_iff, one_ne_zero, and_false, if_false, Nat.add_sub_cancel]
      have e : A i 0 / A 0 0 * A 0 0 * (A j 0 / A 0 0) = A i 0 * A j 0 / A 0 0 := by field_simp
      rw [e]
      rcases i with _ | i
      · simp only [if_true, zero_mul, Finset.sum_const_zero, zero_add]
        rw [h.symm 0 hi j hj]
        field_simp
      · rcases j with _ | j
        · simp only [if_true, mul_zero, Finset.sum_const_zero, zero_add]
          field_simp
        · have := hL.eq i (by omega) j (by omega)
          simp only [Nat.add_eq_zero_iff, one_ne_zero, and_false, if_false, Nat.add_sub_cancel]
          rw [← this]
          ring
    · intro k hk
      rcases k with _ | k
      · simpa using a00
      · have := hd k (by omega)
        simpa using this

/-- Rows and columns of a matrix taken in another order. -/
def Spec.permuted {n : ℕ} (σ : Equiv.Perm (Fin n)) (A : Matrix (Fin n) (Fin n) K) : ℕ → ℕ → K := fun i j =>
  if h : i < n ∧ j < n then A (σ ⟨i, h.1⟩) (σ ⟨j, h.2⟩) else 0

theorem quad_permuted {n : ℕ} (σ : Equiv.Perm (Fin n)) (A : Matrix (Fin n) (Fin n) K) (v : Fin n → K) :
    quad (toMat n (permuted σ A)) v = quad A (v ∘ σ.symm) := by
  simp only [quad, toMat, Matrix.of_apply, permuted, Fin.is_lt, and_self, dif_pos, Fin.eta]
  rw [← Equiv.sum_comp σ (fun i => (v ∘ σ.symm) i * _)]
  refine Finset.sum_congr rfl fun i _ => ?_
  rw [← Equiv.sum_comp σ (fun j => A (σ i) j * (v ∘ σ.symm) j)]
  simp

/-- The KKT matrix of the solver as one square matrix: primal rows first. -/
def Spec.flatKkt {n m : ℕ} (A : Matrix (Fin n ⊕ Fin m) (Fin n ⊕ Fin m) K) : Matrix (Fin (n + m)) (Fin (n + m)) K :=
  Matrix.of fun i j => A (finSumFinEquiv.symm i) (finSumFinEquiv.symm j)

theorem quad_flatKkt {n m : ℕ} (A : Matrix (Fin n ⊕ Fin m) (Fin n ⊕ Fin m) K) (v : Fin (n + m) → K) :
    quad (flatKkt A) v = quad A (v ∘ finSumFinEquiv) := by
  simp only [quad, flatKkt, Matrix.of_apply]
  rw [← Equiv.sum_comp finSumFinEquiv]
  refine Finset.sum_congr rfl fun i _ => ?_
  rw [← Equiv.sum_comp finSumFinEquiv]
  simp

theorem quasiDefinite_kkt {n m : ℕ} (Hs : Matrix (Fin n) (Fin n) K) (hsym : Hs.IsSymm) (hH : PosDef Hs) (J : Fin m → Fin n → K)
    (d : Fin m → K) (hd : ∀ i, d i < 0) (σ : Equiv.Perm (Fin (n + m))) :
    QuasiDefinite (n + m) (permuted σ (flatKkt (kktMatrix Hs J d)))
      (fun i => if h : i < n + m then decide ((σ ⟨i, h⟩ : ℕ) < n) else false) := by
  have hval : ∀ v : Fin (n + m) → K, ∀ a, (v ∘ σ.symm ∘ finSumFinEquiv) a = v (σ.symm (finSumFinEquiv a)) := fun _ _ => rfl
  refine ⟨fun i hi j hj => ?_, fun v hv hne => ?_, fun v hv hne => ?_⟩
  · have hK := C24_symmetric Hs hsym J d
    simp only [permuted, hi, hj, and_self, dif_pos, flatKkt, Matrix.of_apply]
    exact hK.apply _ _
  · rw [quad_permuted, quad_flatKkt]
    have hz : ∀ i, ((v ∘ σ.symm) ∘ finSumFinEquiv) (.inr i) = 0 := by
      intro i
      apply hv
      simp
    rw [quad_kkt _ _ _ hd, quad_reduced]
    have hx : (fun j => ((v ∘ σ.symm) ∘ finSumFinEquiv) (Sum.inl j)) ≠ 0 := by
      intro hc
      apply hne
      funext k
      have : v k = ((v ∘ σ.symm) ∘ finSumFinEquiv) (finSumFinEquiv.symm (σ k)) := by simp
      rw [this]
      rcases finSumFinEquiv.symm (σ k) with a | a
      · exact congrFun hc a
      · exact hz a
    have h1 := hH _ hx
    have h2 : ∑ i, (1 / (-d i)) * (∑ k, J i k * ((v ∘ σ.symm) ∘ finSumFinEquiv) (Sum.inl k)) ^ 2 +
        ∑ i, d i * (((v ∘ σ.symm) ∘ finSumFinEquiv) (Sum.inr i) +
          (∑ k, J i k * ((v ∘ σ.symm) ∘ finSumFinEquiv) (Sum.inl k)) / d i) ^ 2 = 0 := by
      rw [← Finset.sum_add_distrib]
      refine Finset.sum_eq_zero fun i _ => ?_
      rw [hz i]
      have := (hd i).ne
      field_simp
      ring
    linarith
  · rw [quad_permuted, quad_flatKkt]
    have hz : ∀ i, ((v ∘ σ.symm) ∘ finSumFinEquiv) (.inl i) = 0 := by
      intro i
      apply hv
      simp
    refine quad_liftDual_neg Hs J d hd _ ⟨fun i => ((v ∘ σ.symm) ∘ finSumFinEquiv) (.inr i), ?_⟩ ?_
    · funext a
      rcases a with a | a
      · rw [hz a]; rfl
      · rfl
    · intro hc
      apply hne
      funext k
      have : v k = ((v ∘ σ.symm) ∘ finSumFinEquiv) (finSumFinEquiv.symm (σ k)) := by simp
      rw [this, hc]
      rfl

/-- **C78**: with a positive definite Hessian block and a negative dual diagonal (which the assembled matrix has for
`mu > 0`), `compute` on the KKT matrix, in whatever order its rows and columns are taken, meets no zero pivot; the pivots of
primal rows are positive, those of dual rows negative, so the reported inertia is right. -/
theorem C78_kkt_pivots {n m : ℕ} (o : DenseObj K) (Hs : Matrix (Fin n) (Fin n) K) (hsym : Hs.IsSymm) (hH : PosDef Hs)
    (J : Fin m → Fin n → K) (d : Fin m → K) (hd : ∀ i, d i < 0) (σ : Equiv.Perm (Fin (n + m))) :
    let F := o.compute (n + m) (permuted σ (flatKkt (kktMatrix Hs J d)))
    IsLDL (n + m) (permuted σ (flatKkt (kktMatrix Hs J d))) (unitLower F.mat) F.vectorD ∧
    (∀ k : Fin (n + m), if (σ k : ℕ) < n then 0 < F.vectorD k else F.vectorD k < 0) := by
  intro F
  have hq := quasiDefinite_kkt Hs hsym hH J d hd σ
  obtain ⟨L, dd, hL, hpiv⟩ := C78_factorisation_exists _ _ _ hq
  have hm : ∀ i < n + m, ∀ j < n + m, matCoeff (permuted σ (flatKkt (kktMatrix Hs J d))) i j = permuted σ (flatKkt (kktMatrix Hs J d)) i j := by
    intro i hi j hj
    simp only [matCoeff]
    split_ifs
    · rfl
    · exact hq.symm j hj i hi
  have hL' : IsLDL (n + m) (matCoeff (permuted σ (flatKkt (kktMatrix Hs J d)))) L dd :=
    ⟨hL.unit, hL.lower, hL.pivots, fun i hi j hj => by rw [hm i hi j hj]; exact hL.eq i hi j hj⟩
  obtain ⟨h1, h2⟩ := C55_finds_factorisation o (n + m) _ L dd hL'
  refine ⟨?_, fun k => ?_⟩
  · have := C55_factorises o (n + m) (permuted σ (flatKkt (kktMatrix Hs J d))) (fun k hk => by rw [h1 k (by omega)]; exact hL.pivots k hk)
    exact ⟨this.unit, this.lower, this.pivots, fun i hi j hj => by rw [← hm i hi j hj]; exact this.eq i hi j hj⟩
  · have := hpiv k k.2
    simp only [Fin.is_lt, dif_pos, Fin.eta, decide_eq_true_eq] at this
    rw [show F.vectorD k = dd k from h1 k k.2]
    exact this

/-- the hypotheses are met: one variable, one constraint, dual row first -/
example : let F := (DenseObj.init 2 : DenseObj ℚ).compute 2 (permuted (Equiv.swap 0 1) (flatKkt (kktMatrix (n := 1) (m := 1)
    (Matrix.of fun _ _ => 1) (fun _ _ => 3) fun _ => -1)))
    F.vectorD 0 < 0 ∧ 0 < F.vectorD 1 := by
  intro F
  have h := (C78_kkt_pivots (DenseObj.init 2 : DenseObj ℚ) (n := 1) (m := 1) (Matrix.of fun _ _ => 1) (by
    ext i j; rfl) (by
    intro v hv
    have : v 0 ≠ 0 := fun h => hv (funext fun i => by rw [Subsingleton.elim i 0]; exact h)
    simpa [quad] using this) (fun _ _ => 3) (fun _ => -1) (fun _ => by norm_num) (Equiv.swap 0 1)).2
  have a := h 0
  have b := h 1
  simp only [Equiv.swap_apply_left, Equiv.swap_apply_right] at a b
  exact ⟨a, b⟩

end ProxNLP
