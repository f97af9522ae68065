import Verif.Spec.Kkt
import Verif.Spec.BlockKind
import Mathlib.LinearAlgebra.FiniteDimensional.Lemmas
import Mathlib.LinearAlgebra.Dimension.Constructions
import Mathlib.Algebra.BigOperators.Fin
import Mathlib.Tactic.Ring
import Mathlib.Tactic.Linarith
import Mathlib.Tactic.Positivity

/-! Sylvester's law for a matrix whose quadratic form is a weighted sum of squares of independent linear forms. -/

set_option linter.unusedSectionVars false
namespace ProxNLP

open Spec

variable {K : Type} [Field K] [LinearOrder K] [IsStrictOrderedRing K] {ι κ : Type} [Fintype ι] [DecidableEq ι] [Fintype κ] [DecidableEq κ]

/-- vectors supported on the indices satisfying `p`, as a linear map into all vectors -/
def extendZero (p : κ → Prop) [DecidablePred p] : ({k // p k} → K) →ₗ[K] (κ → K) where
  toFun x k := if h : p k then x ⟨k, h⟩ else 0
  map_add' x y := by funext k; by_cases h : p k <;> simp [h]
  map_smul' a x := by funext k; by_cases h : p k <;> simp [h]

theorem extendZero_inj (p : κ → Prop) [DecidablePred p] : Function.Injective (extendZero (K := K) p) := by
  intro x y h
  funext ⟨k, hk⟩
  have := congrFun h k
  simpa [extendZero, hk] using this

theorem finrank_extend (T : (ι → K) ≃ₗ[K] (κ → K)) (p : κ → Prop) [DecidablePred p] :
    Module.finrank K (LinearMap.range (T.symm.toLinearMap.comp (extendZero (K := K) p))) = Fintype.card {k // p k} := by
  rw [LinearMap.finrank_range_of_inj]
  · simp
  · exact T.symm.injective.comp (extendZero_inj p)

/-- if the form of `A` is `∑ d k (T v k)^2` for an invertible linear `T`, the inertia of `A` is given by the signs of `d` -/
theorem hasInertia_of_squares (A : Matrix ι ι K) (T : (ι → K) ≃ₗ[K] (κ → K)) (d : κ → K)
    (h : ∀ v, quad A v = ∑ k, d k * T v k ^ 2) :
    HasInertia A (Fintype.card {k // 0 < d k}) (Fintype.card {k // d k < 0}) (Fintype.card {k // d k = 0}) := by
  have hcard : Fintype.card {k // 0 < d k} + Fintype.card {k // d k ≤ 0} = Fintype.card κ := by
    rw [← Fintype.card_congr (Equiv.subtypeEquivRight fun k => not_lt (a := 0) (b := d k)), Fintype.card_subtype_compl]
    have := Fintype.card_subtype_le fun k => 0 < d k
    omega
  have hcard' : Fintype.card {k // d k < 0} + Fintype.card {k // 0 ≤ d k} = Fintype.card κ := by
    rw [← Fintype.card_congr (Equiv.subtypeEquivRight fun k => not_lt (a := d k) (b := 0)), Fintype.card_subtype_compl]
    have := Fintype.card_subtype_le fun k => d k < 0
    omega
  have hcard3 : Fintype.card {k // 0 < d k} + Fintype.card {k // d k < 0} + Fintype.card {k // d k = 0} = Fintype.card κ := by
    have e : Fintype.card {k // d k ≤ 0} = Fintype.card {k // d k < 0} + Fintype.card {k // d k = 0} := by
      rw [Fintype.card_congr (Equiv.subtypeEquivRight fun k => le_iff_lt_or_eq (a := d k) (b := 0))]
      exact Fintype.card_subtype_or_disjoint _ _ (by
        rw [Pi.disjoint_iff]; intro k; rw [Prop.disjoint_iff]; by_contra hc
        exact hc.1.ne hc.2)
    omega
  have hdim : Fintype.card κ = Fintype.card ι := by
    have := T.finrank_eq; simpa using this.symm
  have hfin : Module.finrank K (ι → K) = Fintype.card κ := by simp [hdim]
  have ext0 : ∀ (p : κ → Prop) [DecidablePred p] (v : ι → K),
      v ∈ LinearMap.range (T.symm.toLinearMap.comp (extendZero (K := K) p)) → ∀ k, ¬ p k → T v k = 0 := by
    rintro p _ _ ⟨x, rfl⟩ k hk
    simp [extendZero, hk]
  have nonz : ∀ v : ι → K, v ≠ 0 → ∃ k, T v k ≠ 0 := by
    intro v hv
    by_contra hc
    push Not at hc
    exact hv (T.injective (by rw [map_zero]; exact funext hc))
  have hpos : ∀ v ∈ LinearMap.range (T.symm.toLinearMap.comp (extendZero (K := K) fun k => 0 < d k)), v ≠ 0 → 0 < quad A v := by
    intro v hv hne
    rw [h]
    obtain ⟨k, hk⟩ := nonz v hne
    have hkp : 0 < d k := by
      by_contra hc; exact hk (ext0 _ v hv k hc)
    refine Finset.sum_pos' (fun i _ => ?_) ⟨k, Finset.mem_univ _, mul_pos hkp (by positivity)⟩
    by_cases hi : 0 < d i
    · exact mul_nonneg hi.le (sq_nonneg _)
    · rw [ext0 _ v hv i hi]; simp
  have hneg : ∀ v ∈ LinearMap.range (T.symm.toLinearMap.comp (extendZero (K := K) fun k => d k < 0)), v ≠ 0 → quad A v < 0 := by
    intro v hv hne
    rw [h]
    obtain ⟨k, hk⟩ := nonz v hne
    have hkp : d k < 0 := by
      by_contra hc; exact hk (ext0 _ v hv k hc)
    refine Finset.sum_neg' (fun i _ => ?_) ⟨k, Finset.mem_univ _, mul_neg_of_neg_of_pos hkp (by positivity)⟩
    by_cases hi : d i < 0
    · exact mul_nonpos_of_nonpos_of_nonneg hi.le (sq_nonneg _)
    · rw [ext0 _ v hv i hi]; simp
  have hnonpos : ∀ v ∈ LinearMap.range (T.symm.toLinearMap.comp (extendZero (K := K) fun k => d k ≤ 0)), quad A v ≤ 0 := by
    intro v hv
    rw [h]
    refine Finset.sum_nonpos fun i _ => ?_
    by_cases hi : d i ≤ 0
    · exact mul_nonpos_of_nonpos_of_nonneg hi (sq_nonneg _)
    · rw [ext0 _ v hv i hi]; simp
  have hnonneg : ∀ v ∈ LinearMap.range (T.symm.toLinearMap.comp (extendZero (K := K) fun k => 0 ≤ d k)), 0 ≤ quad A v := by
    intro v hv
    rw [h]
    refine Finset.sum_nonneg fun i _ => ?_
    by_cases hi : 0 ≤ d i
    · exact mul_nonneg hi (sq_nonneg _)
    · rw [ext0 _ v hv i hi]; simp
  refine ⟨⟨⟨_, finrank_extend T _, hpos⟩, ?_⟩, ⟨⟨_, finrank_extend T _, hneg⟩, ?_⟩, by rw [hcard3, hdim]⟩
  · rintro r ⟨V, hVr, hV⟩
    have hdis : Disjoint V (LinearMap.range (T.symm.toLinearMap.comp (extendZero (K := K) fun k => d k ≤ 0))) := by
      rw [Submodule.disjoint_def]
      intro v h1 h2
      by_contra hne
      exact absurd (hV v h1 hne) (not_lt.2 (hnonpos v h2))
    have := Submodule.finrank_add_finrank_le_of_disjoint hdis
    rw [hVr, finrank_extend, hfin] at this
    omega
  · rintro r ⟨V, hVr, hV⟩
    have hdis : Disjoint V (LinearMap.range (T.symm.toLinearMap.comp (extendZero (K := K) fun k => 0 ≤ d k))) := by
      rw [Submodule.disjoint_def]
      intro v h1 h2
      by_contra hne
      exact absurd (hV v h1 hne) (not_lt.2 (hnonneg v h2))
    have := Submodule.finrank_add_finrank_le_of_disjoint hdis
    rw [hVr, finrank_extend, hfin] at this
    omega

theorem HasInertia.unique {A : Matrix ι ι K} {p q z p' q' z' : ℕ} (h : HasInertia A p q z) (h' : HasInertia A p' q' z') :
    p = p' ∧ q = q' ∧ z = z' := by
  have e1 := h.1.unique h'.1
  have e2 := h.2.1.unique h'.2.1
  have := h.2.2
  have := h'.2.2
  omega

/-- the `n × n` matrix with the given coefficients -/
def Spec.toMat (n : ℕ) (A : ℕ → ℕ → K) : Matrix (Fin n) (Fin n) K := Matrix.of fun i j => A i j

/-- `v ↦ Bᵀ v` -/
def transposeMap (n : ℕ) (B : ℕ → ℕ → K) : (Fin n → K) →ₗ[K] (Fin n → K) where
  toFun v k := ∑ i : Fin n, B i k * v i
  map_add' x y := by funext k; simp [mul_add, Finset.sum_add_distrib]
  map_smul' a x := by
    funext k
    simp only [Pi.smul_apply, smul_eq_mul, RingHom.id_apply, Finset.mul_sum]
    exact Finset.sum_congr rfl fun i _ => by ring

/-- the transpose of a unit lower triangular matrix is injective -/
theorem transposeMap_inj (n : ℕ) (L : ℕ → ℕ → K) (hu : ∀ i < n, L i i = 1) (hl : ∀ i < n, ∀ j < n, i < j → L i j = 0) :
    Function.Injective (transposeMap n L) := by
  rw [← LinearMap.ker_eq_bot, LinearMap.ker_eq_bot']
  intro v hv
  have key : ∀ t : ℕ, ∀ k : Fin n, n - 1 - k = t → v k = 0 := by
    intro t
    induction t using Nat.strong_induction_on with
    | _ t ih =>
      intro k hk
      have h1 : ∑ i : Fin n, L i k * v i = 0 := congrFun hv k
      rw [Finset.sum_eq_single k] at h1
      · rwa [hu k k.2, one_mul] at h1
      · intro i _ hik
        rcases lt_or_gt_of_ne hik with h2 | h2
        · rw [hl i i.2 k k.2 h2, zero_mul]
        · have h2' : (k : ℕ) < i := h2
          rw [ih (n - 1 - i) (by have := i.2; omega) i rfl, mul_zero]
      · intro h; exact absurd (Finset.mem_univ _) h
  funext k
  exact key _ k rfl

theorem quad_ldl (n : ℕ) (A L : ℕ → ℕ → K) (d : ℕ → K) (h : ∀ i < n, ∀ j < n, A i j = ∑ k ∈ Finset.range n, L i k * d k * L j k)
    (v : Fin n → K) : quad (toMat n A) v = ∑ k : Fin n, d k * transposeMap n L v k ^ 2 := by
  simp only [quad, toMat, Matrix.of_apply, transposeMap, LinearMap.coe_mk, AddHom.coe_mk]
  have e : ∀ i : Fin n, v i * ∑ j : Fin n, A i j * v j = ∑ k : Fin n, d k * (L i k * v i * ∑ j : Fin n, L j k * v j) := by
    intro i
    simp only [Finset.mul_sum]
    rw [Finset.sum_comm]
    refine Finset.sum_congr rfl fun j _ => ?_
    rw [h i i.2 j j.2, Finset.sum_range, Finset.sum_mul, Finset.mul_sum]
    exact Finset.sum_congr rfl fun k _ => by ring
  rw [Finset.sum_congr rfl fun i _ => e i, Finset.sum_comm]
  refine Finset.sum_congr rfl fun k _ => ?_
  rw [← Finset.mul_sum, ← Finset.sum_mul, pow_two]

/-- inertia read off an `L D L^T` factorisation -/
theorem IsLDL.hasInertia {n : ℕ} {A L : ℕ → ℕ → K} {d : ℕ → K} (h : IsLDL n A L d) :
    HasInertia (toMat n A) (Fintype.card {k : Fin n // 0 < d k}) (Fintype.card {k : Fin n // d k < 0})
      (Fintype.card {k : Fin n // d k = 0}) := by
  refine hasInertia_of_squares _ (LinearEquiv.ofInjectiveEndo _ (transposeMap_inj n L h.unit h.lower)) (fun k => d k) fun v => ?_
  rw [quad_ldl n A L d h.eq]
  rfl

end ProxNLP
