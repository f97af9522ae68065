import Verif.Props.Kkt
import Mathlib.LinearAlgebra.FiniteDimensional.Lemmas
import Mathlib.LinearAlgebra.Matrix.NonsingularInverse
import Mathlib.LinearAlgebra.Matrix.ToLinearEquiv
import Mathlib.Tactic.Positivity
import Mathlib.Tactic.NormNum

/-!
Property theorems C24 (symmetry and inertia of the assembled KKT matrix) and C68 (descent).
-/

set_option linter.unusedSectionVars false
namespace ProxNLP

open Spec Matrix

variable {K : Type} [Field K] [LinearOrder K] [IsStrictOrderedRing K] {n m : ℕ}

/-- C24: the Hessian-side block is symmetric when all its ingredients are. -/
theorem C24_hessian_symmetric (exact : Bool) (rho : K) (hess proxHess : Matrix (Fin n) (Fin n) K)
    (vhps : List (Bool × Matrix (Fin n) (Fin n) K)) (h1 : hess.IsSymm) (h2 : proxHess.IsSymm)
    (h3 : ∀ v ∈ vhps, v.2.IsSymm) : (kktHessian exact rho hess proxHess vhps).IsSymm := by
  unfold kktHessian
  have h0 : (if 0 < rho then hess + proxHess else hess).IsSymm := by
    split_ifs
    · exact h1.add h2
    · exact h1
  generalize (if 0 < rho then hess + proxHess else hess) = A at h0
  simp only
  induction vhps generalizing A with
  | nil => exact h0
  | cons v t ih =>
    rw [List.foldl_cons]
    refine ih (fun w hw => h3 w (List.mem_cons_of_mem _ hw)) _ ?_
    split_ifs
    · exact h0.add (h3 v List.mem_cons_self)
    · exact h0

/-- C24: what the Hessian-side block is: the cost Hessian, plus the proximal Hessian when `rho > 0`, plus the sum of
the vector-Hessian products in mode EXACT (none of them otherwise, all built-in sets disabling Gauss-Newton terms). -/
theorem C24_hessian_value (exact : Bool) (rho : K) (hess proxHess : Matrix (Fin n) (Fin n) K)
    (vhps : List (Bool × Matrix (Fin n) (Fin n) K)) (hb : ∀ v ∈ vhps, v.1 = true) :
    kktHessian exact rho hess proxHess vhps =
      hess + (if 0 < rho then proxHess else 0) + (if exact then (vhps.map Prod.snd).sum else 0) := by
  unfold kktHessian
  have h0 : (if 0 < rho then hess + proxHess else hess) = hess + (if 0 < rho then proxHess else 0) := by
    split_ifs <;> simp
  rw [h0]
  generalize hess + (if 0 < rho then proxHess else 0) = A
  simp only
  induction vhps generalizing A with
  | nil => simp
  | cons v t ih =>
    rw [List.foldl_cons, ih (fun w hw => hb w (List.mem_cons_of_mem _ hw))]
    have := hb v List.mem_cons_self
    cases exact <;> simp [this, add_assoc]

/-- C24: the assembled KKT matrix is symmetric. -/
theorem C24_symmetric (Hs : Matrix (Fin n) (Fin n) K) (hs : Hs.IsSymm) (Jp : Fin m → Fin n → K) (d : Fin m → K) :
    (kktMatrix Hs Jp d).IsSymm := by
  unfold kktMatrix
  refine IsSymm.fromBlocks hs ?_ (isSymm_diagonal d)
  simp

/-- Reduced Hessian `Hs + Σ_i (1 / -d_i) a_i a_iᵀ`, `a_i` the rows of `Jp`. -/
def Spec.reduced (Hs : Matrix (Fin n) (Fin n) K) (Jp : Fin m → Fin n → K) (d : Fin m → K) :
    Matrix (Fin n) (Fin n) K := fun j k => Hs j k + ∑ i, (1 / (-d i)) * Jp i j * Jp i k

theorem quad_reduced (Hs : Matrix (Fin n) (Fin n) K) (Jp : Fin m → Fin n → K) (d : Fin m → K) (x : Fin n → K) :
    quad (reduced Hs Jp d) x = quad Hs x + ∑ i, (1 / (-d i)) * (∑ k, Jp i k * x k) ^ 2 := by
  unfold quad reduced
  have e : ∀ j, x j * ∑ k, (Hs j k + ∑ i, (1 / (-d i)) * Jp i j * Jp i k) * x k =
      x j * ∑ k, Hs j k * x k + ∑ i, (1 / (-d i)) * (Jp i j * x j) * ∑ k, Jp i k * x k := by
    intro j
    simp only [add_mul, Finset.sum_add_distrib, mul_add]
    congr 1
    simp only [Finset.sum_mul, Finset.mul_sum]
    rw [Finset.sum_comm]
    exact Finset.sum_congr rfl fun i _ => Finset.sum_congr rfl fun k _ => by ring
  rw [Finset.sum_congr rfl fun j _ => e j, Finset.sum_add_distrib]
  congr 1
  rw [Finset.sum_comm]
  refine Finset.sum_congr rfl fun i _ => ?_
  rw [← Finset.sum_mul, ← Finset.mul_sum]; ring

/-- completed square -/
theorem quad_kkt (Hs : Matrix (Fin n) (Fin n) K) (Jp : Fin m → Fin n → K) (d : Fin m → K) (hd : ∀ i, d i < 0)
    (v : Fin n ⊕ Fin m → K) :
    quad (kktMatrix Hs Jp d) v = quad (reduced Hs Jp d) (fun j => v (.inl j)) +
      ∑ i, d i * (v (.inr i) + (∑ k, Jp i k * v (.inl k)) / d i) ^ 2 := by
  rw [quad_reduced]
  unfold quad
  simp only [Fintype.sum_sum_type, kktMatrix, fromBlocks_apply₁₁, fromBlocks_apply₁₂, fromBlocks_apply₂₁,
    fromBlocks_apply₂₂, transpose_apply, of_apply, diagonal_apply, ite_mul, zero_mul, Finset.sum_ite_eq,
    Finset.mem_univ, if_true, mul_add, Finset.sum_add_distrib]
  have e1 : ∑ j, v (.inl j) * ∑ i, Jp i j * v (.inr i) = ∑ i, v (.inr i) * ∑ j, Jp i j * v (.inl j) := by
    simp only [Finset.mul_sum]
    rw [Finset.sum_comm]
    exact Finset.sum_congr rfl fun i _ => Finset.sum_congr rfl fun k _ => by ring
  rw [e1, add_assoc, add_assoc]
  congr 1
  rw [← Finset.sum_add_distrib, ← Finset.sum_add_distrib, ← Finset.sum_add_distrib]
  refine Finset.sum_congr rfl fun i _ => ?_
  have := (hd i).ne
  field_simp
  ring

/-- `(x, -D⁻¹ Jp x)` as a linear map -/
def liftPrimal (Jp : Fin m → Fin n → K) (d : Fin m → K) : (Fin n → K) →ₗ[K] (Fin n ⊕ Fin m → K) where
  toFun x := Sum.elim x fun i => -(∑ k, Jp i k * x k) / d i
  map_add' x y := by
    funext k
    cases k
    · simp
    · simp [mul_add, Finset.sum_add_distrib]; ring
  map_smul' a x := by
    funext k
    cases k
    · simp
    · simp only [Pi.smul_apply, smul_eq_mul, Sum.elim_inr, RingHom.id_apply]
      rw [show ∀ (f : Fin n → K), ∑ k, f k * (a * x k) = a * ∑ k, f k * x k from fun f => by
        rw [Finset.mul_sum]; exact Finset.sum_congr rfl fun k _ => by ring]
      ring

/-- `(0, y)` as a linear map -/
def liftDual : (Fin m → K) →ₗ[K] (Fin n ⊕ Fin m → K) where
  toFun y := Sum.elim 0 y
  map_add' x y := by funext k; cases k <;> simp
  map_smul' a x := by funext k; cases k <;> simp

theorem finrank_liftPrimal (Jp : Fin m → Fin n → K) (d : Fin m → K) :
    Module.finrank K (LinearMap.range (liftPrimal Jp d)) = n := by
  rw [LinearMap.finrank_range_of_inj]
  · simp
  · intro x y h
    have := congrArg (fun v j => v (Sum.inl j)) h
    exact this

theorem finrank_liftDual : Module.finrank K (LinearMap.range (liftDual (K := K) (n := n) (m := m))) = m := by
  rw [LinearMap.finrank_range_of_inj]
  · simp
  · intro x y h
    have := congrArg (fun v j => v (Sum.inr j)) h
    exact this

theorem quad_liftDual (Hs : Matrix (Fin n) (Fin n) K) (Jp : Fin m → Fin n → K) (d : Fin m → K)
    (hd : ∀ i, d i < 0) (y : Fin m → K) :
    quad (kktMatrix Hs Jp d) (liftDual y) = ∑ i, d i * y i ^ 2 := by
  rw [quad_kkt _ _ _ hd]
  simp [liftDual, quad]

theorem quad_liftDual_neg (Hs : Matrix (Fin n) (Fin n) K) (Jp : Fin m → Fin n → K) (d : Fin m → K)
    (hd : ∀ i, d i < 0) (v : Fin n ⊕ Fin m → K) (hv : v ∈ LinearMap.range (liftDual (K := K) (n := n) (m := m)))
    (hv0 : v ≠ 0) : quad (kktMatrix Hs Jp d) v < 0 := by
  obtain ⟨y, rfl⟩ := hv
  rw [quad_liftDual _ _ _ hd]
  have : ∃ i, y i ≠ 0 := by
    by_contra h
    push Not at h
    exact hv0 (by rw [show y = 0 from funext h, map_zero])
  obtain ⟨i, hi⟩ := this
  refine Finset.sum_neg' (fun i _ => mul_nonpos_of_nonpos_of_nonneg (hd i).le (sq_nonneg _)) ⟨i, Finset.mem_univ _, ?_⟩
  exact mul_neg_of_neg_of_pos (hd i) (by positivity)

theorem disjoint_of_signs {ι : Type*} [Fintype ι] (A : Matrix ι ι K) (V W : Submodule K (ι → K))
    (hV : ∀ v ∈ V, v ≠ 0 → 0 < quad A v) (hW : ∀ v ∈ W, quad A v ≤ 0) : Disjoint V W := by
  rw [Submodule.disjoint_def]
  intro v h1 h2
  by_contra h
  exact absurd (hV v h1 h) (not_lt.2 (hW v h2))

/-- C24: with a negative dual diagonal, the KKT matrix has exactly `n` positive and `m` negative directions and none
left over if and only if the reduced Hessian is positive definite. -/
theorem C24_inertia_iff (Hs : Matrix (Fin n) (Fin n) K) (Jp : Fin m → Fin n → K) (d : Fin m → K)
    (hd : ∀ i, d i < 0) :
    HasInertia (kktMatrix Hs Jp d) n m 0 ↔ PosDef (reduced Hs Jp d) := by
  have hcard : Module.finrank K (Fin n ⊕ Fin m → K) = n + m := by simp
  constructor
  · rintro ⟨⟨⟨V, hVr, hV⟩, -⟩, -, -⟩ x hx
    by_contra hneg
    push Not at hneg
    -- the subspace `{(t x, y)}` is nonpositive, of dimension `m+1`
    let φ : (K × (Fin m → K)) →ₗ[K] (Fin n ⊕ Fin m → K) :=
      ((liftPrimal Jp d).comp ((LinearMap.toSpanSingleton K _ x).comp (LinearMap.fst K _ _))) +
        (liftDual.comp (LinearMap.snd K _ _))
    have hφ : ∀ t y, φ (t, y) = fun k => liftPrimal Jp d (t • x) k + liftDual (n := n) y k := fun t y => rfl
    have hinj : Function.Injective φ := by
      rw [← LinearMap.ker_eq_bot, LinearMap.ker_eq_bot']
      rintro ⟨t, y⟩ h
      rw [hφ] at h
      have h1 : ∀ j, t * x j = 0 := by
        intro j; have := congrFun h (.inl j); simpa [liftPrimal, liftDual] using this
      have ht : t = 0 := by
        obtain ⟨j, hj⟩ : ∃ j, x j ≠ 0 := by
          by_contra hc; push Not at hc; exact hx (funext hc)
        exact (mul_eq_zero.1 (h1 j)).resolve_right hj
      subst ht
      have h2 : y = 0 := by
        funext i; have := congrFun h (.inr i); simpa [liftPrimal, liftDual] using this
      rw [h2]; rfl
    have hW : ∀ v ∈ LinearMap.range φ, quad (kktMatrix Hs Jp d) v ≤ 0 := by
      rintro _ ⟨⟨t, y⟩, rfl⟩
      rw [quad_kkt _ _ _ hd, hφ]
      have e : quad (reduced Hs Jp d) (fun j => liftPrimal Jp d (t • x) (.inl j) + liftDual (n := n) y (.inl j)) =
          t ^ 2 * quad (reduced Hs Jp d) x := by
        simp only [liftPrimal, liftDual, LinearMap.coe_mk, AddHom.coe_mk, Sum.elim_inl, Pi.smul_apply, smul_eq_mul,
          Pi.zero_apply, add_zero, quad, Finset.mul_sum]
        exact Finset.sum_congr rfl fun i _ => Finset.sum_congr rfl fun k _ => by ring
      simp only [e]
      refine add_nonpos (mul_nonpos_of_nonneg_of_nonpos (sq_nonneg _) hneg) ?_
      exact Finset.sum_nonpos fun i _ => mul_nonpos_of_nonpos_of_nonneg (hd i).le (sq_nonneg _)
    have hdim := Submodule.finrank_add_finrank_le_of_disjoint (disjoint_of_signs _ V _ hV hW)
    rw [hVr, LinearMap.finrank_range_of_inj hinj, hcard] at hdim
    simp at hdim
  · intro hS
    have hpos : ∀ v ∈ LinearMap.range (liftPrimal Jp d), v ≠ 0 → 0 < quad (kktMatrix Hs Jp d) v := by
      rintro _ ⟨x, rfl⟩ hv
      have hx : x ≠ 0 := by rintro rfl; exact hv (map_zero _)
      rw [quad_kkt _ _ _ hd]
      have : ∀ i, d i * (liftPrimal Jp d x (.inr i) + (∑ k, Jp i k * liftPrimal Jp d x (.inl k)) / d i) ^ 2 = 0 := by
        intro i
        simp only [liftPrimal, LinearMap.coe_mk, AddHom.coe_mk, Sum.elim_inr, Sum.elim_inl]
        ring
      rw [Finset.sum_eq_zero fun i _ => this i, add_zero]
      exact hS x hx
    refine ⟨⟨⟨_, finrank_liftPrimal Jp d, hpos⟩, ?_⟩, ⟨⟨_, finrank_liftDual, quad_liftDual_neg Hs Jp d hd⟩, ?_⟩, ?_⟩
    · rintro r ⟨V, hVr, hV⟩
      have hdim := Submodule.finrank_add_finrank_le_of_disjoint (disjoint_of_signs _ V _ hV fun v hv => by
        by_cases h : v = 0
        · subst h; simp [quad]
        · exact (quad_liftDual_neg Hs Jp d hd v hv h).le)
      rw [hVr, finrank_liftDual, hcard] at hdim
      omega
    · rintro r ⟨V, hVr, hV⟩
      have hdim := Submodule.finrank_add_finrank_le_of_disjoint (disjoint_of_signs _ _ V hpos fun v hv => by
        by_cases h : v = 0
        · subst h; simp [quad]
        · exact (hV v hv h).le)
      rw [hVr, finrank_liftPrimal, hcard] at hdim
      omega
    · simp

theorem reduced_posDef (Hs : Matrix (Fin n) (Fin n) K) (Jp : Fin m → Fin n → K) (d : Fin m → K)
    (hd : ∀ i, d i < 0) (hH : PosDef Hs) : PosDef (reduced Hs Jp d) := by
  intro v hv
  rw [quad_reduced]
  refine add_pos_of_pos_of_nonneg (hH v hv) (Finset.sum_nonneg fun i _ => mul_nonneg ?_ (sq_nonneg _))
  have := hd i
  exact one_div_nonneg.2 (by linarith)

/-- the dual diagonal is negative in both systems -/
theorem kktDual_neg (sys : KktSys) (mu : K) (hmu : 0 < mu) (keep : Fin m → Bool) (i : Fin m) :
    kktDual sys mu keep i < 0 := by
  cases sys
  · simpa [kktDual] using hmu
  · unfold kktDual
    simp only
    split_ifs <;> linarith

/-- C24: the matrix the solver assembles, in both KKT modes, for `mu > 0` and positive definite Hessian block, has
the inertia the solver asks for, and is nonsingular. -/
theorem C24_inertia (sys : KktSys) (mu : K) (hmu : 0 < mu) (keep : Fin m → Bool) (J : Fin m → Fin n → K)
    (Hs : Matrix (Fin n) (Fin n) K) (hH : PosDef Hs) :
    HasInertia (kktMatrix Hs (maskRows keep J) (kktDual sys mu keep)) n m 0 ∧
    IsUnit (kktMatrix Hs (maskRows keep J) (kktDual sys mu keep)) := by
  have hd := kktDual_neg sys mu hmu keep
  have hS := reduced_posDef Hs (maskRows keep J) _ hd hH
  refine ⟨(C24_inertia_iff _ _ _ hd).2 hS, ?_⟩
  rw [← Matrix.mulVec_injective_iff_isUnit]
  rw [show (kktMatrix Hs (maskRows keep J) (kktDual sys mu keep)).mulVec =
    ⇑(kktMatrix Hs (maskRows keep J) (kktDual sys mu keep)).mulVecLin from rfl, ← LinearMap.ker_eq_bot,
    LinearMap.ker_eq_bot']
  intro v hv
  rw [mulVecLin_apply, kktMatrix, fromBlocks_mulVec] at hv
  have htop : ∀ j, ∑ k, Hs j k * v (.inl k) + ∑ i, maskRows keep J i j * v (.inr i) = 0 := fun j => by
    simpa [mulVec, dotProduct] using congrFun hv (.inl j)
  have hbot : ∀ i, ∑ k, maskRows keep J i k * v (.inl k) + kktDual sys mu keep i * v (.inr i) = 0 := fun i => by
    simpa [mulVec, dotProduct, diagonal_apply] using congrFun hv (.inr i)
  have hx : (fun j => v (.inl j)) = 0 := by
    by_contra hne
    have h1 := hS _ hne
    rw [quad_reduced] at h1
    have h2 : quad Hs (fun j => v (.inl j)) = - ∑ i, (∑ k, maskRows keep J i k * v (.inl k)) * v (.inr i) := by
      unfold quad
      have : ∀ j, v (.inl j) * ∑ k, Hs j k * v (.inl k) = - (v (.inl j) * ∑ i, maskRows keep J i j * v (.inr i)) :=
        fun j => by linear_combination v (.inl j) * htop j
      rw [Finset.sum_congr rfl fun j _ => this j, Finset.sum_neg_distrib]
      congr 1
      simp only [Finset.mul_sum, Finset.sum_mul]
      rw [Finset.sum_comm]
      exact Finset.sum_congr rfl fun i _ => Finset.sum_congr rfl fun k _ => by ring
    rw [h2, ← Finset.sum_neg_distrib, ← Finset.sum_add_distrib] at h1
    refine absurd h1 (not_lt.2 (le_of_eq (Finset.sum_eq_zero fun i _ => ?_)))
    have hb := hbot i
    have hne := (hd i).ne
    have : ∑ k, maskRows keep J i k * v (.inl k) = - (kktDual sys mu keep i * v (.inr i)) := by
      linear_combination hb
    rw [this]; field_simp; ring
  funext k
  rcases k with j | i
  · exact congrFun hx j
  · have hb := hbot i
    have hz : ∑ k, maskRows keep J i k * v (.inl k) = 0 :=
      Finset.sum_eq_zero fun k _ => by rw [show v (.inl k) = 0 from congrFun hx k, mul_zero]
    rw [hz, zero_add] at hb
    exact (mul_eq_zero.1 hb).resolve_left (hd i).ne

/-- non-vacuity: an indefinite-looking but correct case, `Hs = -1/2`, one active row, `mu = 1`: the reduced
Hessian is `1/2`. -/
example : HasInertia (kktMatrix (n := 1) (m := 1) (fun _ _ => (-1 / 2 : ℚ)) (fun _ _ => 1) (fun _ => -1)) 1 1 0 := by
  refine (C24_inertia_iff _ _ _ fun _ => by norm_num).2 fun v hv => ?_
  have : v 0 ≠ 0 := fun h => hv (funext fun i => by rw [Subsingleton.elim i 0, h]; rfl)
  have h2 : 0 < v 0 * v 0 := mul_self_pos.2 this
  simp [quad, reduced]
  nlinarith

example : PosDef (fun _ _ => 1 : Matrix (Fin 1) (Fin 1) ℚ) := by
  intro v hv
  have : v 0 ≠ 0 := fun h => hv (funext fun i => by rw [Subsingleton.elim i 0, h]; rfl)
  have h2 : 0 < v 0 * v 0 := mul_self_pos.2 this
  simpa [quad] using h2

/-! ## C68 -/

/-- The slope in terms of a Newton step of the primal-dual system. -/
theorem dmerit_identity (mu rho : K) (hmu : 0 < mu) (H : Matrix (Fin n) (Fin n) K) (J : Fin m → Fin n → K)
    (keep : Fin m → Bool) (grad proxGrad : Fin n → K) (lam lamsPdal dlam : Fin m → K) (dx : Fin n → K)
    (hN : Newton .primalDual mu H J (fun i => keep i = true) (rhsPrimal rho grad proxGrad J lam)
      (fun i => (1 / 2) * mu * (lamsPdal i - lam i)) dx dlam) :
    dmeritDir rho (1 / 2) mu grad proxGrad J lam lamsPdal dx dlam =
      -quad (reduced H (maskRows keep J) (kktDual .primalDual mu keep)) dx -
        ∑ i, (if keep i then mu / 4 else mu / 2) * (lamsPdal i - lam i) ^ 2 := by
  obtain ⟨h1, h2⟩ := hN
  simp only at h2
  rw [quad_reduced]
  -- slope through the residual
  have e1 : dmeritDir rho (1 / 2) mu grad proxGrad J lam lamsPdal dx dlam =
      (∑ j, rhsPrimal rho grad proxGrad J lam j * dx j) + ∑ i, (lamsPdal i - lam i) * (∑ k, J i k * dx k)
        - ∑ i, (1 / 2) * mu * (lamsPdal i - lam i) * dlam i := by
    unfold dmeritDir meritGradient meritDualGradient rhsPrimal
    have : ∑ i, (lamsPdal i - lam i) * (∑ k, J i k * dx k) = ∑ j, (∑ i, J i j * (lamsPdal i - lam i)) * dx j := by
      simp only [Finset.mul_sum, Finset.sum_mul]
      rw [Finset.sum_comm]
      exact Finset.sum_congr rfl fun i _ => Finset.sum_congr rfl fun k _ => by ring
    rw [this, ← Finset.sum_add_distrib, sub_eq_add_neg, ← Finset.sum_neg_distrib]
    congr 1
    · refine Finset.sum_congr rfl fun j _ => ?_
      have : ∑ i, J i j * (lamsPdal i - lam i) = ∑ i, J i j * lamsPdal i - ∑ i, J i j * lam i := by
        rw [← Finset.sum_sub_distrib]; exact Finset.sum_congr rfl fun i _ => by ring
      rw [this]; ring
    · exact Finset.sum_congr rfl fun i _ => by ring
  have e2 : ∑ j, rhsPrimal rho grad proxGrad J lam j * dx j = - quad H dx - ∑ i, dlam i * ∑ k, J i k * dx k := by
    have : ∀ j, rhsPrimal rho grad proxGrad J lam j * dx j =
        -(dx j * ∑ k, H j k * dx k) - (∑ i, J i j * dlam i) * dx j := fun j => by
      linear_combination dx j * h1 j
    rw [Finset.sum_congr rfl fun j _ => this j, Finset.sum_sub_distrib, Finset.sum_neg_distrib]
    congr 1
    simp only [Finset.mul_sum, Finset.sum_mul]
    rw [Finset.sum_comm]
    exact Finset.sum_congr rfl fun i _ => Finset.sum_congr rfl fun k _ => by ring
  rw [e1, e2, neg_add, sub_add, sub_sub, add_sub_assoc, sub_eq_add_neg (-quad H dx)]
  congr 1
  rw [← Finset.sum_neg_distrib, ← Finset.sum_sub_distrib, ← Finset.sum_sub_distrib, ← Finset.sum_add_distrib,
    ← Finset.sum_neg_distrib]
  refine Finset.sum_congr rfl fun i _ => ?_
  have hi := h2 i
  have hmu' := hmu.ne'
  cases hk : keep i
  · simp only [hk, Bool.false_eq_true, if_false, maskRows, zero_mul, Finset.sum_const_zero, kktDual] at hi ⊢
    have : dlam i = lamsPdal i - lam i := mul_left_cancel₀ hmu' (by linear_combination (-2) * hi)
    rw [this]; ring
  · simp only [hk, if_true, maskRows, kktDual] at hi ⊢
    have : dlam i = (∑ k, J i k * dx k) / mu + (lamsPdal i - lam i) / 2 := by
      field_simp; linear_combination (-2) * hi
    rw [this]; field_simp; ring

/-- C68 in the primal-dual KKT mode (`pdal_beta = 1/2`): if the assembled matrix has the inertia the solver checks
for, and the step solves the assembled (symmetrised) system exactly, then the slope handed to the line search is
negative unless the residual is zero.  Both KKT modes are claimed by the property; the classic one is
`C68_descent_classic_partial` and `C68_descent_classic_false`. -/
theorem C68_descent_primal_dual (sets : StackedSet K m) (mu rho : K) (hmu : 0 < mu) (H : Matrix (Fin n) (Fin n) K)
    (J : Fin m → Fin n → K) (grad proxGrad : Fin n → K) (c lam lamPrev dlam : Fin m → K) (dx : Fin n → K)
    (M : Mults K m) (hM : M = computeMultipliers sets mu mu (1 / 2) c lam lamPrev)
    (Kmat : Matrix (Fin n ⊕ Fin m) (Fin n ⊕ Fin m) K)
    (hK : Kmat = kktMatrix H (maskRows (keptRows .primalDual sets mu M) J)
      (kktDual .primalDual mu (keptRows .primalDual sets mu M)))
    (hI : HasInertia Kmat n m 0)
    (hstep : Kmat *ᵥ Sum.elim dx dlam =
      -Sum.elim (fun j => rhsPrimal rho grad proxGrad J lam j +
          rhsCorrection .primalDual J (maskRows (keptRows .primalDual sets mu M) J) M lam j)
        (rhsDual .primalDual mu M lam))
    (hres : ¬ (rhsPrimal rho grad proxGrad J lam = 0 ∧ rhsDual .primalDual mu M lam = 0)) :
    dmeritDir rho (1 / 2) mu grad proxGrad J lam M.lamsPdal dx dlam < 0 := by
  subst hK
  have hN := (C23_symmetric_iff_newton .primalDual sets mu mu (1 / 2) rho hmu.ne' H J grad proxGrad c lam lamPrev dx
    dlam M hM).1 hstep
  have hS := (C24_inertia_iff _ _ _ (kktDual_neg .primalDual mu hmu (keptRows .primalDual sets mu M))).1 hI
  rw [dmerit_identity mu rho hmu H J (keptRows .primalDual sets mu M) grad proxGrad lam M.lamsPdal dlam dx hN]
  have hw : 0 ≤ ∑ i, (if keptRows .primalDual sets mu M i then mu / 4 else mu / 2) * (M.lamsPdal i - lam i) ^ 2 :=
    Finset.sum_nonneg fun i _ => mul_nonneg (by split_ifs <;> positivity) (sq_nonneg _)
  by_cases hx : dx = 0
  · -- then some multiplier entry moves
    have hw' : ∃ i, M.lamsPdal i - lam i ≠ 0 := by
      by_contra hall
      push Not at hall
      have hs : rhsDual .primalDual mu M lam = 0 := by
        funext i; simp [rhsDual, hall i]
      have hdl : ∀ i, dlam i = 0 := by
        intro i
        have := hN.2 i
        rw [hs] at this
        subst hx
        simp only [Pi.zero_apply, mul_zero, Finset.sum_const_zero, neg_zero] at this
        split_ifs at this
        · exact (mul_eq_zero.1 (show mu * dlam i = 0 by linear_combination -this)).resolve_left hmu.ne'
        · exact (mul_eq_zero.1 (show mu * dlam i = 0 by linear_combination -2 * this)).resolve_left hmu.ne'
      refine hres ⟨?_, hs⟩
      funext j
      have := hN.1 j
      subst hx
      simp only [Pi.zero_apply, mul_zero, Finset.sum_const_zero, hdl, add_zero] at this
      simpa using this.symm
    obtain ⟨i, hi⟩ := hw'
    have hpos : 0 < ∑ i, (if keptRows .primalDual sets mu M i then mu / 4 else mu / 2) * (M.lamsPdal i - lam i) ^ 2 := by
      refine Finset.sum_pos' (fun i _ => mul_nonneg (by split_ifs <;> positivity) (sq_nonneg _))
        ⟨i, Finset.mem_univ _, ?_⟩
      refine mul_pos (by split_ifs <;> positivity) (by positivity)
    subst hx
    have : quad (reduced H (maskRows (keptRows .primalDual sets mu M) J)
        (kktDual .primalDual mu (keptRows .primalDual sets mu M))) (0 : Fin n → K) = 0 := by simp [quad]
    rw [this]; linarith
  · have := hS dx hx
    linarith

/-- non-vacuity of C68: equality constraint with value 1, unit Hessian and Jacobian, `mu = 1`. The exact step is
`(-1/2, 1/2)`. -/
example : dmeritDir (0 : ℚ) (1 / 2) 1 (fun _ : Fin 1 => 0) 0 (fun _ _ => 1) (fun _ : Fin 1 => 0)
    (computeMultipliers (StackedSet.ofLeaves fun _ => (.equality, 0)) 1 1 (1 / 2) (fun _ => 1) (fun _ => 0)
      (fun _ => 0)).lamsPdal (fun _ => -1 / 2) (fun _ => 1 / 2) < 0 := by
  refine C68_descent_primal_dual (StackedSet.ofLeaves fun _ => (.equality, 0)) 1 0 one_pos (fun _ _ => 1)
    (fun _ _ => 1) (fun _ => 0) 0 (fun _ => 1) (fun _ => 0) (fun _ => 0) (fun _ => 1 / 2) (fun _ => -1 / 2) _ rfl _ rfl
    (C24_inertia .primalDual 1 one_pos _ _ _ ?_).1 ?_ ?_
  · intro v hv
    have : v 0 ≠ 0 := fun h => hv (funext fun i => by rw [Subsingleton.elim i 0, h]; rfl)
    have h2 : 0 < v 0 * v 0 := mul_self_pos.2 this
    simpa [quad] using h2
  · refine (C23_symmetric_iff_newton .primalDual _ 1 1 (1 / 2) 0 one_ne_zero _ (fun _ _ => 1) (fun _ => 0) 0
      (fun _ => 1) (fun _ => 0) (fun _ => 0) (fun _ => -1 / 2) (fun _ => 1 / 2) _ rfl).2 ⟨?_, ?_⟩
    · intro j; norm_num [rhsPrimal]
    · intro i; norm_num [rhsDual, computeMultipliers, StackedSet.ofLeaves, LeafSet.normalAt, keptRows,
        LeafSet.activeAt]
  · rintro ⟨_, h⟩
    have := congrFun h 0
    norm_num [rhsDual, computeMultipliers, StackedSet.ofLeaves, LeafSet.normalAt] at this

/-- C68, classic KKT mode (the default), part: if at every row the multiplier estimates of the two systems are
consistent - the row is active in both with `λpdal - λ = 2 (λ⁺ - λ)`, or inactive in both with `λpdal = λ⁺` - the slope
is negative unless the residual is zero.  Missing: rows whose active status differs between the two shifted
constraint values, where the claim is false (`C68_descent_classic_false`). -/
theorem C68_descent_classic_partial (sets : StackedSet K m) (mu rho : K) (hmu : 0 < mu)
    (H : Matrix (Fin n) (Fin n) K)
    (J : Fin m → Fin n → K) (grad proxGrad : Fin n → K) (c lam lamPrev dlam : Fin m → K) (dx : Fin n → K)
    (M : Mults K m) (hM : M = computeMultipliers sets mu mu (1 / 2) c lam lamPrev)
    (hcons : ∀ i, (sets.active mu M.shift i = true ∧ sets.active mu M.shiftPdal i = true ∧
        M.lamsPdal i - lam i = 2 * (M.lamsPlus i - lam i)) ∨
      (sets.active mu M.shift i = false ∧ sets.active mu M.shiftPdal i = false ∧ M.lamsPdal i = M.lamsPlus i))
    (Kmat : Matrix (Fin n ⊕ Fin m) (Fin n ⊕ Fin m) K)
    (hK : Kmat = kktMatrix H (maskRows (keptRows .classic sets mu M) J)
      (kktDual .classic mu (keptRows .classic sets mu M)))
    (hI : HasInertia Kmat n m 0)
    (hstep : Kmat *ᵥ Sum.elim dx dlam =
      -Sum.elim (fun j => rhsPrimal rho grad proxGrad J lam j +
          rhsCorrection .classic J (maskRows (keptRows .classic sets mu M) J) M lam j)
        (rhsDual .classic mu M lam))
    (hres : ¬ (rhsPrimal rho grad proxGrad J lam = 0 ∧ rhsDual .classic mu M lam = 0)) :
    dmeritDir rho (1 / 2) mu grad proxGrad J lam M.lamsPdal dx dlam < 0 := by
  subst hK
  have hkeep : keptRows .classic sets mu M = keptRows .primalDual sets mu M := by
    funext i
    rcases hcons i with ⟨a, b, _⟩ | ⟨a, b, _⟩ <;> simp [keptRows, a, b]
  have hN := (C23_symmetric_iff_newton .classic sets mu mu (1 / 2) rho hmu.ne' H J grad proxGrad c lam lamPrev dx
    dlam M hM).1 hstep
  have hS := (C24_inertia_iff _ _ _ (kktDual_neg .classic mu hmu (keptRows .classic sets mu M))).1 hI
  -- the same step solves the primal-dual Newton system
  have hN' : Newton .primalDual mu H J (fun i => keptRows .primalDual sets mu M i = true)
      (rhsPrimal rho grad proxGrad J lam) (rhsDual .primalDual mu M lam) dx dlam := by
    refine ⟨hN.1, fun i => ?_⟩
    have := hN.2 i
    rw [hkeep] at this
    rcases hcons i with ⟨a, b, e⟩ | ⟨a, b, e⟩
    · simp only [keptRows, b, if_true, rhsDual] at this ⊢
      linear_combination this + mu / 2 * e
    · simp only [keptRows, b, if_false, Bool.false_eq_true, rhsDual] at this ⊢
      linear_combination (1 / 2) * this + mu / 2 * e
  have hred : PosDef (reduced H (maskRows (keptRows .primalDual sets mu M) J)
      (kktDual .primalDual mu (keptRows .primalDual sets mu M))) := by
    intro v hv
    have := hS v hv
    rw [quad_reduced] at this ⊢
    rw [← hkeep]
    refine this.trans_eq ?_
    congr 1
    refine Finset.sum_congr rfl fun i _ => ?_
    cases hk : keptRows .classic sets mu M i
    · simp [maskRows, hk]
    · simp only [kktDual, hk, if_true]
      congr 2; ring
  have hstep' := (C23_symmetric_iff_newton .primalDual sets mu mu (1 / 2) rho hmu.ne' H J grad proxGrad c lam lamPrev dx
    dlam M hM).2 hN'
  refine C68_descent_primal_dual sets mu rho hmu H J grad proxGrad c lam lamPrev dlam dx M hM _ rfl
    ((C24_inertia_iff _ _ _ (kktDual_neg .primalDual mu hmu _)).2 hred) hstep' ?_
  rintro ⟨h1, h2⟩
  refine hres ⟨h1, ?_⟩
  funext i
  have := congrFun h2 i
  simp only [rhsDual, Pi.zero_apply] at this ⊢
  rcases hcons i with ⟨a, b, e⟩ | ⟨a, b, e⟩
  · linear_combination this - mu / 2 * e
  · linear_combination 2 * this - mu * e

/-- the consistency hypothesis of `C68_descent_classic_partial` holds for problems with equality constraints only. -/
theorem C68_equality_consistent (mu : K) (hmu : 0 < mu) (idx : Fin m → ℕ) (c lam lamPrev : Fin m → K) (i : Fin m) :
    let sets := StackedSet.ofLeaves fun i => ((.equality : LeafSet K), idx i)
    let M := computeMultipliers sets mu mu (1 / 2) c lam lamPrev
    sets.active mu M.shift i = true ∧ sets.active mu M.shiftPdal i = true ∧
      M.lamsPdal i - lam i = 2 * (M.lamsPlus i - lam i) := by
  refine ⟨rfl, rfl, ?_⟩
  simp only [computeMultipliers, StackedSet.ofLeaves, LeafSet.normalAt]
  field_simp
  ring

/-- C68, failure in the classic KKT mode (the default): one nonpositivity constraint `c ≤ 0` with `J = 1`, `mu = 1`,
shifted value `1` (active), multiplier `3` (so the row is inactive for the primal-dual shift), Hessian `-99/100`.  The
matrix has the right inertia, the step solves the assembled system exactly, yet the slope is positive. -/
theorem C68_descent_classic_false :
    ∃ (sets : StackedSet ℚ 1) (H : Matrix (Fin 1) (Fin 1) ℚ) (J : Fin 1 → Fin 1 → ℚ) (grad dx : Fin 1 → ℚ)
      (c lam lamPrev dlam : Fin 1 → ℚ) (M : Mults ℚ 1) (Kmat : Matrix (Fin 1 ⊕ Fin 1) (Fin 1 ⊕ Fin 1) ℚ),
      sets = StackedSet.ofLeaves (fun _ => (.negOrthant, 0)) ∧
      M = computeMultipliers sets 1 1 (1 / 2) c lam lamPrev ∧
      Kmat = kktMatrix H (maskRows (keptRows .classic sets 1 M) J) (kktDual .classic 1 (keptRows .classic sets 1 M)) ∧
      HasInertia Kmat 1 1 0 ∧
      Kmat *ᵥ Sum.elim dx dlam =
        -Sum.elim (fun j => rhsPrimal 0 grad 0 J lam j +
            rhsCorrection .classic J (maskRows (keptRows .classic sets 1 M) J) M lam j) (rhsDual .classic 1 M lam) ∧
      0 < dmeritDir 0 (1 / 2) 1 grad 0 J lam M.lamsPdal dx dlam := by
  have hk : ∀ M, M = computeMultipliers (StackedSet.ofLeaves (fun _ : Fin 1 => ((.negOrthant : LeafSet ℚ), 0))) 1 1
      (1 / 2) (fun _ => 1) (fun _ => 3) (fun _ => 0) →
      keptRows .classic (StackedSet.ofLeaves (fun _ : Fin 1 => ((.negOrthant : LeafSet ℚ), 0))) 1 M = fun _ => true := by
    rintro M rfl
    funext i; simp [keptRows, computeMultipliers, StackedSet.ofLeaves, LeafSet.activeAt]
  refine ⟨_, fun _ _ => -99 / 100, fun _ _ => 1, fun _ => -112 / 100, fun _ => 12, fun _ => 1, fun _ => 3, fun _ => 0,
    fun _ => 10, _, _, rfl, rfl, rfl, ?_, ?_, ?_⟩
  · refine (C24_inertia_iff _ _ _ (kktDual_neg .classic 1 one_pos _)).2 fun v hv => ?_
    have : v 0 ≠ 0 := fun h => hv (funext fun i => by rw [Subsingleton.elim i 0, h]; rfl)
    have h2 : 0 < v 0 * v 0 := mul_self_pos.2 this
    rw [hk _ rfl]
    simp [quad, reduced, maskRows, kktDual]
    nlinarith
  · refine (C23_symmetric_iff_newton .classic _ 1 1 (1 / 2) 0 one_ne_zero _ (fun _ _ => 1) (fun _ => -112 / 100) 0
      (fun _ => 1) (fun _ => 3) (fun _ => 0) (fun _ => 12) (fun _ => 10) _ rfl).2 ?_
    rw [hk _ rfl]
    constructor
    · intro j; norm_num [rhsPrimal]
    · intro i; norm_num [rhsDual, computeMultipliers, StackedSet.ofLeaves, LeafSet.normalAt]
  · norm_num [dmeritDir, meritGradient, meritDualGradient, computeMultipliers, StackedSet.ofLeaves, LeafSet.normalAt]

end ProxNLP
