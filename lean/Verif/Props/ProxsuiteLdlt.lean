import Verif.Model.ProxsuiteLdlt
import Verif.Props.BlockLdlt

/-! Property theorems for C82: the wrapper around ProxSuite's LDLT. -/

set_option linter.unusedSectionVars false
namespace ProxNLP

open Spec

variable {K : Type} [Field K] [LinearOrder K] [IsStrictOrderedRing K]

namespace Spec

/-- `f` is a factorisation `A = P L D Lᵀ Pᵀ` of the symmetric matrix given by the lower half of `A`. -/
def FactorsOf {n : ℕ} (f : PsFactor K n) (A : ℕ → ℕ → K) : Prop :=
  IsLDL n (permuted f.perm (toMat n (matCoeff A))) (unitLower f.ld) f.vectorD

/-- What is asked of the external factorisation: it returns factors of every matrix that has them in whatever order its
rows and columns are taken. -/
def PivotedLdlt {n : ℕ} (fac : (ℕ → ℕ → K) → PsFactor K n) : Prop :=
  ∀ A, (∀ σ, ∃ L d, IsLDL n (permuted σ (toMat n (matCoeff A))) L d) → FactorsOf (fac A) A

end Spec

theorem psPerm_fin {n : ℕ} (σ : Equiv.Perm (Fin n)) (v : ℕ → K) (i : Fin n) : psPerm σ v i = v (σ.symm i) := by
  simp [psPerm]

/-- the inner solve is that of the dense LDLT -/
theorem psSolveImpl_eq (tiny : K) {n : ℕ} (f : PsFactor K n) (b : ℕ → K) :
    psSolveImpl tiny n f.ld b = DenseObj.solve tiny ⟨n, f.ld, .zeroSign, none⟩ b := rfl

theorem permuted_sum {n : ℕ} (M : Matrix (Fin n) (Fin n) K) (σ : Equiv.Perm (Fin n)) (v : ℕ → K) (i : Fin n) :
    ∑ j ∈ Finset.range n, permuted σ M i j * v j = ∑ j, M (σ i) j * psPerm σ v j := by
  rw [Finset.sum_range, ← Equiv.sum_comp σ fun j => M (σ i) j * psPerm σ v j]
  refine Finset.sum_congr rfl fun j _ => ?_
  rw [psPerm_fin]
  simp [permuted]

/-- **C82**: if the external factorisation is right and no pivot is under the threshold, `solve` returns the solution of the
system. -/
theorem C82_solves (tiny : K) (ht : 0 ≤ tiny) {n : ℕ} (f : PsFactor K n) (A : ℕ → ℕ → K) (h : FactorsOf f A)
    (hd : ∀ k < n, tiny < |f.vectorD k|) (b : ℕ → K) (i : Fin n) :
    ∑ j : Fin n, matCoeff A i j * f.solve tiny b j = b i := by
  have hd0 : ∀ k < n, f.vectorD k ≠ 0 := fun k hk e => by
    have := hd k hk
    rw [e, abs_zero] at this
    exact absurd this (not_lt.2 ht)
  have := C55_solves tiny ⟨n, f.ld, .zeroSign, none⟩ _ h hd hd0 (psPerm f.perm.symm b) (f.perm.symm i) (Fin.is_lt _)
  rw [permuted_sum, psPerm_fin] at this
  simp only [Equiv.apply_symm_apply, Equiv.symm_symm] at this
  exact this

/-- **C82, singular matrices**: with pivots that are zero or above the threshold, `solve` returns a solution of every
system that has one. -/
theorem C82_solves_singular (tiny : K) (ht : 0 ≤ tiny) {n : ℕ} (f : PsFactor K n) (A : ℕ → ℕ → K) (h : FactorsOf f A)
    (hd : ∀ k < n, f.vectorD k = 0 ∨ tiny < |f.vectorD k|) (b x' : ℕ → K)
    (hb : ∀ i : Fin n, ∑ j : Fin n, matCoeff A i j * x' j = b i) (i : Fin n) :
    ∑ j : Fin n, matCoeff A i j * f.solve tiny b j = b i := by
  have := (C55_solves_singular tiny ⟨n, f.ld, .zeroSign, none⟩ _ h ht hd (psPerm f.perm.symm b)
    (psPerm f.perm.symm x') (fun k hk => ?_)).1 (f.perm.symm i) (Fin.is_lt _)
  · rw [permuted_sum, psPerm_fin] at this
    simp only [Equiv.apply_symm_apply, Equiv.symm_symm] at this
    exact this
  · have e := permuted_sum (toMat n (matCoeff A)) f.perm (psPerm f.perm.symm x') ⟨k, hk⟩
    have e2 := psPerm_fin f.perm.symm b ⟨k, hk⟩
    simp only [Equiv.symm_symm] at e2
    show ∑ j ∈ Finset.range n, permuted f.perm (toMat n (matCoeff A)) k j * psPerm f.perm.symm x' j = _
    rw [e2, ← hb]
    refine e.trans (Finset.sum_congr rfl fun j _ => ?_)
    rw [psPerm_fin, psPerm_fin]
    simp [toMat]

/-- **C82**: `reconstructedMatrix()` returns the matrix that was factorised, including a singular one. -/
theorem C82_reconstructs {n : ℕ} (f : PsFactor K n) (A : ℕ → ℕ → K) (h : FactorsOf f A) (i j : Fin n) :
    f.reconstruct i j = matCoeff A i j := by
  have := h.eq (f.perm.symm i) (Fin.is_lt _) (f.perm.symm j) (Fin.is_lt _)
  have e : permuted f.perm (toMat n (matCoeff A)) (f.perm.symm i) (f.perm.symm j) = matCoeff A i j := by
    simp [permuted, toMat]
  rw [e] at this
  rw [this]
  simp only [PsFactor.reconstruct, psPerm_fin]
  refine Finset.sum_congr rfl fun k _ => ?_
  ring

/-- **C82**: the counts of the signs of `vectorD()` are the inertia of the matrix. -/
theorem C82_inertia {n : ℕ} (f : PsFactor K n) (A : ℕ → ℕ → K) (h : FactorsOf f A) :
    ∃ p q z, computeInertiaTuple f.signature = some (p, q, z) ∧ HasInertia (toMat n (matCoeff A)) p q z := by
  refine ⟨_, _, _, ?_, IsLDL.hasInertia_permuted _ _ h⟩
  rw [C26_inertia_tuple]
  refine ⟨?_, ?_, ?_, ?_⟩
  · intro s hs
    obtain ⟨k, -, rfl⟩ := List.mem_map.1 hs
    exact cwiseSign_entries _
  · rw [PsFactor.signature, count_map_range]
    exact Fintype.card_congr (Equiv.subtypeEquivRight fun k => (cwiseSign_eq_one _).symm)
  · rw [PsFactor.signature, count_map_range]
    exact Fintype.card_congr (Equiv.subtypeEquivRight fun k => (cwiseSign_eq_neg _).symm)
  · rw [PsFactor.signature, count_map_range]
    exact Fintype.card_congr (Equiv.subtypeEquivRight fun k => (cwiseSign_eq_zero _).symm)

/-- **C82**: on a factorised matrix the inertia check accepts exactly the wanted inertia. -/
theorem C82_verdict {ndx nc : ℕ} (f : PsFactor K (ndx + nc)) (A : ℕ → ℕ → K) (h : FactorsOf f A) :
    checkInertia ndx nc f.signature = some .ok ↔ HasInertia (toMat (ndx + nc) (matCoeff A)) ndx nc 0 := by
  obtain ⟨p, q, z, h1, h2⟩ := C82_inertia f A h
  rw [checkInertia, h1, Option.map_some]
  constructor
  · intro h
    by_cases a1 : p = ndx <;> by_cases a2 : q = nc <;> by_cases a3 : z = 0 <;> simp [a1, a2, a3] at h
    subst a1 a2 a3
    exact h2
  · intro h
    obtain ⟨rfl, rfl, rfl⟩ := HasInertia.unique h h2
    simp

/-- **C82, sign (negative)**: `sign()` is never written: whatever is factorised, it is reported as the zero sign. A
positive definite matrix is reported so. -/
theorem C82_sign_false (fac : (ℕ → ℕ → K) → PsFactor K 1) :
    ∃ A : ℕ → ℕ → K, PosDef (toMat 1 (matCoeff A)) ∧
      ((PsObj.init 1 : PsObj K 1).compute fac A).sign = .zeroSign ∧
      ((PsObj.init 1 : PsObj K 1).compute fac A).info = some true := by
  refine ⟨fun _ _ => 1, fun v hv => ?_, rfl, rfl⟩
  have : v 0 ≠ 0 := fun e => hv (by ext i; rw [Subsingleton.elim i 0, e]; rfl)
  simp only [quad, toMat, matCoeff, Finset.univ_unique, Finset.sum_singleton, Matrix.of_apply]
  simpa using mul_self_pos.2 this

/-! ### The hypotheses are met -/

namespace Demo

/-- a factorisation that takes the rows in the order `σ` -/
def orderedFac {n : ℕ} (σ : Equiv.Perm (Fin n)) (A : ℕ → ℕ → K) : PsFactor K n :=
  ⟨((DenseObj.init n).compute n (permuted σ (toMat n (matCoeff A)))).mat, σ⟩

theorem orderedFac_pivoted {n : ℕ} (σ : Equiv.Perm (Fin n)) : PivotedLdlt (orderedFac (K := K) σ) := by
  intro A h
  obtain ⟨L, d, hL⟩ := h σ
  have hm : ∀ i < n, ∀ j < n, matCoeff (permuted σ (toMat n (matCoeff A))) i j = permuted σ (toMat n (matCoeff A)) i j := by
    intro i hi j hj
    simp only [matCoeff]
    split_ifs with hij
    · rfl
    · simp only [permuted, hi, hj, and_self, dif_pos, toMat, Matrix.of_apply, matCoeff]
      split_ifs <;> first | rfl | (congr 1 <;> omega)
  have hL' : IsLDL n (matCoeff (permuted σ (toMat n (matCoeff A)))) L d := hL.congr_left hm
  have := C55_factorises (DenseObj.init n) n (permuted σ (toMat n (matCoeff A))) ?_
  · exact this.congr_left fun i hi j hj => (hm i hi j hj).symm
  · intro k hk
    rw [(C55_finds_factorisation (DenseObj.init n) n _ L d hL').1 k (by omega)]
    exact hL'.pivots k hk

/-- the rows of a 3x3 matrix taken as third, first, second -/
def rot3 : Equiv.Perm (Fin 3) := finRotate 3

theorem rot3_factors : FactorsOf (orderedFac (K := ℚ) rot3 ldltA) ldltA := by
  have hm : ∀ i < 3, ∀ j < 3, permuted rot3 (toMat 3 (matCoeff ldltA)) i j =
      matCoeff (permuted rot3 (toMat 3 (matCoeff ldltA))) i j := by decide +kernel
  exact (C55_factorises (DenseObj.init 3) 3 (permuted rot3 (toMat 3 (matCoeff ldltA)))
    (fun k hk => by
      have : ∀ k < 2, ((DenseObj.init 3).compute 3 (permuted rot3 (toMat 3 (matCoeff ldltA)))).vectorD k ≠ 0 := by
        decide +kernel
      exact this k (by omega))).congr_left hm

example (b : ℕ → ℚ) (i : Fin 3) :
    ∑ j : Fin 3, matCoeff ldltA i j * (orderedFac (K := ℚ) rot3 ldltA).solve (1 / 1000) b j = b i :=
  C82_solves _ (by norm_num) _ _ rot3_factors (by decide +kernel) b i

/-- a singular matrix, its two rows swapped -/
theorem swap_factors : FactorsOf (orderedFac (K := ℚ) (Equiv.swap (0 : Fin 2) 1) fun _ _ => 1) fun _ _ => 1 := by
  have hm : ∀ i < 2, ∀ j < 2, permuted (Equiv.swap (0 : Fin 2) 1) (toMat 2 (matCoeff fun _ _ => (1 : ℚ))) i j =
      matCoeff (permuted (Equiv.swap (0 : Fin 2) 1) (toMat 2 (matCoeff fun _ _ => (1 : ℚ)))) i j := by decide +kernel
  exact (C55_factorises (DenseObj.init 2) 2 (permuted (Equiv.swap (0 : Fin 2) 1) (toMat 2 (matCoeff fun _ _ => (1 : ℚ))))
    (fun k hk => by
      have : ∀ k < 1, ((DenseObj.init 2).compute 2
        (permuted (Equiv.swap (0 : Fin 2) 1) (toMat 2 (matCoeff fun _ _ => (1 : ℚ))))).vectorD k ≠ 0 := by decide +kernel
      exact this k (by omega))).congr_left hm

example (c : ℚ) (i : Fin 2) : ∑ j : Fin 2, matCoeff (fun _ _ => (1 : ℚ)) i j *
    (orderedFac (K := ℚ) (Equiv.swap (0 : Fin 2) 1) fun _ _ => 1).solve (1 / 1000) (fun _ => c) j = c :=
  C82_solves_singular _ (by norm_num) _ _ swap_factors (by decide +kernel) (fun _ => c) (fun j => if j = 0 then c else 0)
    (fun i => by simp [matCoeff, Fin.sum_univ_two]) i

example : (List.range 3).map (fun i => (orderedFac (K := ℚ) rot3 ldltA).reconstruct i 1) = [1, 2, 3] := by decide +kernel

example : computeInertiaTuple (orderedFac (K := ℚ) rot3 ldltA).signature = some (2, 1, 0) := by decide +kernel

end Demo

end ProxNLP
