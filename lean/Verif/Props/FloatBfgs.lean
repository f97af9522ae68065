import Verif.Lemmas.FloatBfgs
import Verif.Props.Bfgs
import Verif.Props.FloatLdlt

/-!
C106: the BFGS update in rounded arithmetic.

`d` bounds the number of roundings a term of a sum goes through (`n + 1` for sums accumulated one term after the other).  The
formula is the one of C34-C36, `(I - p qᵀ/σ) H (I - q pᵀ/σ) + p pᵀ/σ` with `(p, q) = (y, s)` for the Hessian and `(s, y)` for its inverse.
-/

set_option linter.unusedSectionVars false
namespace ProxNLP

open Spec

section
variable {K : Type} [Field K] [LinearOrder K] [IsStrictOrderedRing K] {n : ℕ}

/-- With `σ = sᵀy` the formula of the specification is the exact update. -/
theorem C106_formula (ty : BFGSType) (s y : Fin n → K) (H : Matrix (Fin n) (Fin n) K) (i j : Fin n) :
    bfgsExact (secantP ty s y) (secantQ ty s y) (∑ k, s k * y k) H i j = bfgsMatrix ty s y H i j := by
  cases ty <;>
    simp only [bfgsExact, bfgsFactor, secantP, secantQ, bfgsMatrix, Matrix.add_apply, Matrix.mul_apply, Matrix.transpose_apply, Matrix.of_apply]

/-- One update of an initialised strategy: the differences and the curvature `σ` are computed up to rounding; `σ ≤ 0` leaves the matrix
alone and clears `is_psd`; `σ > 0` sets it, and the entries of the new matrix are those of the formula up to rounding errors relative to
the formula with absolute values. -/
theorem C106_update (R : Rounding K) (hR : R.eta = 0) (q : BfgsOrders n) (d : ℕ) (hq : BfgsOrdersSum q d) (ty : BFGSType) (b : Bfgs K n)
    (hb : b.isInit = true) (x g : Fin n → K) (H : Fin n → Fin n → K) :
    ∃ (s y : Fin n → K) (σ : K) (b' : Bfgs K n) (H' : Fin n → Fin n → K),
      flBfgsUpdate R q ty b x g H = some (b', H') ∧ b'.xPrev = x ∧ b'.gPrev = g ∧
      (∀ i, |s i - (x i - b.xPrev i)| ≤ R.u * |x i - b.xPrev i|) ∧ (∀ i, |y i - (g i - b.gPrev i)| ≤ R.u * |g i - b.gPrev i|) ∧
      |σ - ∑ i, s i * y i| ≤ ((1 + R.u) ^ d - 1) * ∑ i, |s i * y i| ∧
      (σ ≤ 0 → H' = H ∧ b'.isPsd = false) ∧
      (0 < σ → b'.isPsd = true ∧ ∀ i j, |H' i j - bfgsExact (secantP ty s y) (secantQ ty s y) σ H i j| ≤
        ((1 + R.u) ^ (2 * d + 7) - 1) * bfgsAbs (secantP ty s y) (secantQ ty s y) σ H i j) := by
  have hrel : ∀ z, |R.rnd z - z| ≤ R.u * |z| := fun z => by have := R.err z; rwa [hR, add_zero] at this
  have hσ := (Near.sum R hR hq.dot (le_refl (1 : K)) (le_refl (1 : K)) (fun k => Near.refl (R.rnd (x k - b.xPrev k)))
    fun k => Near.refl (R.rnd (g k - b.gPrev k))).err
  simp only [one_mul, ← abs_mul] at hσ
  by_cases h : 0 < q.dot.eval R 0 fun i => (R.rnd (x i - b.xPrev i), R.rnd (g i - b.gPrev i))
  · refine ⟨fun i => R.rnd (x i - b.xPrev i), fun i => R.rnd (g i - b.gPrev i), _, { b with isPsd := true, xPrev := x, gPrev := g },
      _, ?_, rfl, rfl, fun i => hrel _, fun i => hrel _, hσ, fun h0 => absurd h (not_lt.2 h0),
      fun _ => ⟨rfl, fun i j => (flBfgsMatrix_near R hR hq ty _ _ _ H i j).err⟩⟩
    rw [flBfgsUpdate, if_neg (by simp [hb])]
    exact if_pos h
  · refine ⟨fun i => R.rnd (x i - b.xPrev i), fun i => R.rnd (g i - b.gPrev i), _, { b with isPsd := false, xPrev := x, gPrev := g },
      H, ?_, rfl, rfl, fun i => hrel _, fun i => hrel _, hσ, fun _ => ⟨rfl, rfl⟩, fun h0 => absurd h0 h⟩
    rw [flBfgsUpdate, if_neg (by simp [hb])]
    exact if_neg h

/-- The sign of the computed curvature is right as soon as the exact curvature of the computed differences is not hidden by rounding:
then the update is applied exactly when it should be. -/
theorem C106_decision (R : Rounding K) (hR : R.eta = 0) (q : BfgsOrders n) (d : ℕ) (hq : BfgsOrdersSum q d) (ty : BFGSType) (b : Bfgs K n)
    (hb : b.isInit = true) (x g : Fin n → K) (H : Fin n → Fin n → K)
    (hs : ∀ i, R.rnd (x i - b.xPrev i) = x i - b.xPrev i) (hy : ∀ i, R.rnd (g i - b.gPrev i) = g i - b.gPrev i)
    (hsep : ((1 + R.u) ^ d - 1) * ∑ i, |(x i - b.xPrev i) * (g i - b.gPrev i)| < |∑ i, (x i - b.xPrev i) * (g i - b.gPrev i)|) :
    ∃ b' H', flBfgsUpdate R q ty b x g H = some (b', H') ∧ (b'.isPsd = true ↔ 0 < ∑ i, (x i - b.xPrev i) * (g i - b.gPrev i)) := by
  have hσ := (Near.sum R hR hq.dot (le_refl (1 : K)) (le_refl (1 : K)) (fun k => Near.refl (x k - b.xPrev k))
    fun k => Near.refl (g k - b.gPrev k)).err
  simp only [one_mul, ← abs_mul] at hσ
  have h1 := (abs_le.1 (hσ.trans hsep.le))
  have h2 := hσ.trans_lt hsep
  unfold flBfgsUpdate
  rw [if_neg (by simp [hb])]
  simp only [hs, hy]
  generalize (q.dot.eval R 0 fun i => (x i - b.xPrev i, g i - b.gPrev i)) = σ at *
  generalize ∑ i, (x i - b.xPrev i) * (g i - b.gPrev i) = τ at *
  by_cases h : 0 < σ
  · refine ⟨_, _, if_pos h, iff_of_true rfl ?_⟩
    by_contra h0
    rw [abs_of_nonpos (not_lt.1 h0)] at h2
    have := (abs_lt.1 h2).2
    linarith
  · refine ⟨_, _, if_neg h, iff_of_false (by simp) fun h0 => ?_⟩
    rw [abs_of_pos h0] at h2
    have := (abs_lt.1 h2).1
    linarith [not_lt.1 h]

/-- The quadratic form of the new matrix: that of the formula, which is positive when the old matrix was positive definite, up to
rounding errors. -/
theorem C106_quadratic_form (R : Rounding K) (hR : R.eta = 0) (q : BfgsOrders n) (d : ℕ) (hq : BfgsOrdersSum q d) (ty : BFGSType)
    (b : Bfgs K n) (hb : b.isInit = true) (x g : Fin n → K) (H : Fin n → Fin n → K) (hH : PosDef (Matrix.of H)) :
    ∃ (s y : Fin n → K) (σ : K) (b' : Bfgs K n) (H' : Fin n → Fin n → K), flBfgsUpdate R q ty b x g H = some (b', H') ∧
      (∀ i, |s i - (x i - b.xPrev i)| ≤ R.u * |x i - b.xPrev i|) ∧ (∀ i, |y i - (g i - b.gPrev i)| ≤ R.u * |g i - b.gPrev i|) ∧
      (b'.isPsd = false → H' = H) ∧
      (b'.isPsd = true → ∀ v : Fin n → K, v ≠ 0 →
        0 < ∑ i, ∑ j, v i * bfgsExact (secantP ty s y) (secantQ ty s y) σ H i j * v j ∧
        |∑ i, ∑ j, v i * H' i j * v j - ∑ i, ∑ j, v i * bfgsExact (secantP ty s y) (secantQ ty s y) σ H i j * v j| ≤
          ((1 + R.u) ^ (2 * d + 7) - 1) * ∑ i, ∑ j, |v i| * bfgsAbs (secantP ty s y) (secantQ ty s y) σ H i j * |v j|) := by
  obtain ⟨s, y, σ, b', H', h1, h2, h3, h4, h5, h6, h7, h8⟩ := C106_update R hR q d hq ty b hb x g H
  refine ⟨s, y, σ, b', H', h1, h4, h5, fun hf => ?_, fun ht v hv => ?_⟩
  · by_contra hne
    have : 0 < σ := by
      by_contra h0
      exact hne (h7 (not_lt.1 h0)).1
    rw [(h8 this).1] at hf
    exact absurd hf (by simp)
  · have hσ : 0 < σ := by
      by_contra h0
      rw [(h7 (not_lt.1 h0)).2] at ht
      exact absurd ht (by simp)
    refine ⟨bfgsExact_posDef _ _ hσ H hH v hv, ?_⟩
    rw [← Finset.sum_sub_distrib, Finset.mul_sum]
    refine (Finset.abs_sum_le_sum_abs _ _).trans (Finset.sum_le_sum fun i _ => ?_)
    rw [← Finset.sum_sub_distrib, Finset.mul_sum]
    refine (Finset.abs_sum_le_sum_abs _ _).trans (Finset.sum_le_sum fun j _ => ?_)
    rw [← sub_mul, ← mul_sub, abs_mul, abs_mul]
    have k := mul_le_mul_of_nonneg_left ((h8 hσ).2 i j) (mul_nonneg (abs_nonneg (v i)) (abs_nonneg (v j)))
    linarith

/-- A symmetric matrix stays symmetric up to rounding errors. -/
theorem C106_symmetric (R : Rounding K) (hR : R.eta = 0) (q : BfgsOrders n) (d : ℕ) (hq : BfgsOrdersSum q d) (ty : BFGSType)
    (b : Bfgs K n) (hb : b.isInit = true) (x g : Fin n → K) (H : Fin n → Fin n → K) (hH : ∀ i j, H i j = H j i) :
    ∃ (s y : Fin n → K) (σ : K) (b' : Bfgs K n) (H' : Fin n → Fin n → K), flBfgsUpdate R q ty b x g H = some (b', H') ∧
      (∀ i, |s i - (x i - b.xPrev i)| ≤ R.u * |x i - b.xPrev i|) ∧ (∀ i, |y i - (g i - b.gPrev i)| ≤ R.u * |g i - b.gPrev i|) ∧
      |σ - ∑ i, s i * y i| ≤ ((1 + R.u) ^ d - 1) * ∑ i, |s i * y i| ∧
      ∀ i j, |H' i j - H' j i| ≤ 2 * ((1 + R.u) ^ (2 * d + 7) - 1) * bfgsAbs (secantP ty s y) (secantQ ty s y) σ H i j := by
  obtain ⟨s, y, σ, b', H', h1, h2, h3, h4, h5, h6, h7, h8⟩ := C106_update R hR q d hq ty b hb x g H
  refine ⟨s, y, σ, b', H', h1, h4, h5, h6, fun i j => ?_⟩
  have hn := (flBfgsMatrix_near R hR hq ty s y σ H i j)
  by_cases h0 : 0 < σ
  · have k1 := (h8 h0).2 i j
    have k2 := (h8 h0).2 j i
    rw [bfgsExact_symm _ _ _ _ hH j i, bfgsAbs_symm _ _ _ _ hH j i, abs_sub_comm] at k2
    have k3 := abs_sub_le (H' i j) (bfgsExact (secantP ty s y) (secantQ ty s y) σ H i j) (H' j i)
    linarith
  · rw [(h7 (not_lt.1 h0)).1, hH i j, sub_self, abs_zero]
    exact mul_nonneg (mul_nonneg (by norm_num) (sub_nonneg.2 hn.one_le)) hn.nonneg

/-- The secant equation after an update that is not skipped: exact up to the rounding errors of the matrix and the relative error
of the curvature. -/
theorem C106_secant (R : Rounding K) (hR : R.eta = 0) (q : BfgsOrders n) (d : ℕ) (hq : BfgsOrdersSum q d) (ty : BFGSType)
    (b : Bfgs K n) (hb : b.isInit = true) (x g : Fin n → K) (H : Fin n → Fin n → K) :
    ∃ (s y : Fin n → K) (σ ρ : K) (b' : Bfgs K n) (H' : Fin n → Fin n → K), flBfgsUpdate R q ty b x g H = some (b', H') ∧
      (∀ i, |s i - (x i - b.xPrev i)| ≤ R.u * |x i - b.xPrev i|) ∧ (∀ i, |y i - (g i - b.gPrev i)| ≤ R.u * |g i - b.gPrev i|) ∧
      (b'.isPsd = true → 0 < σ ∧ |ρ| * σ ≤ ((1 + R.u) ^ d - 1) * ∑ i, |s i * y i| ∧
        ∀ i, |∑ j, H' i j * secantQ ty s y j - secantP ty s y i| ≤
          ((1 + R.u) ^ (2 * d + 7) - 1) * ∑ j, bfgsAbs (secantP ty s y) (secantQ ty s y) σ H i j * |secantQ ty s y j| +
          |ρ| * (∑ l, |∑ k, bfgsFactor (secantP ty s y) (secantQ ty s y) σ i k * H k l| * |secantQ ty s y l| + |secantP ty s y i|)) := by
  obtain ⟨s, y, σ, b', H', h1, h2, h3, h4, h5, h6, h7, h8⟩ := C106_update R hR q d hq ty b hb x g H
  refine ⟨s, y, σ, 1 - (∑ k, secantP ty s y k * secantQ ty s y k) / σ, b', H', h1, h4, h5, fun ht => ?_⟩
  have hσ : 0 < σ := by
    by_contra h0
    rw [(h7 (not_lt.1 h0)).2] at ht
    exact absurd ht (by simp)
  have hpq : ∑ k, secantP ty s y k * secantQ ty s y k = ∑ k, s k * y k := by
    cases ty
    · exact Finset.sum_congr rfl fun k _ => mul_comm _ _
    · rfl
  refine ⟨hσ, ?_, fun i => ?_⟩
  · rw [hpq, ← abs_of_pos hσ, ← abs_mul, abs_of_pos hσ, sub_mul, one_mul, div_mul_cancel₀ _ hσ.ne']
    exact h6
  · generalize secantP ty s y = p at *
    generalize secantQ ty s y = r at *
    have e := bfgsExact_secant p r σ H i
    have k1 : |∑ j, H' i j * r j - ∑ j, bfgsExact p r σ H i j * r j| ≤ ((1 + R.u) ^ (2 * d + 7) - 1) * ∑ j, bfgsAbs p r σ H i j * |r j| := by
      rw [← Finset.sum_sub_distrib, Finset.mul_sum]
      refine (Finset.abs_sum_le_sum_abs _ _).trans (Finset.sum_le_sum fun j _ => ?_)
      rw [← sub_mul, abs_mul]
      have := mul_le_mul_of_nonneg_right ((h8 hσ).2 i j) (abs_nonneg (r j))
      linarith
    have k2 : |∑ j, bfgsExact p r σ H i j * r j - p i| ≤
        |1 - (∑ k, p k * r k) / σ| * (∑ l, |∑ k, bfgsFactor p r σ i k * H k l| * |r l| + |p i|) := by
      rw [e, abs_mul]
      refine mul_le_mul_of_nonneg_left ((abs_sub _ _).trans (add_le_add_left ?_ _)) (abs_nonneg _)
      refine (Finset.abs_sum_le_sum_abs _ _).trans (le_of_eq (Finset.sum_congr rfl fun l _ => abs_mul _ _))
    have k3 := abs_sub_le (∑ j, H' i j * r j) (∑ j, bfgsExact p r σ H i j * r j) (p i)
    linarith

/-- The flag only says that the last curvature was computed to be positive; over any history an initialised strategy stays so, never
throws, and refers to the last point and gradient. -/
theorem C106_history (R : Rounding K) (q : BfgsOrders n) (ty : BFGSType) (hist : List ((Fin n → K) × (Fin n → K))) (x g : Fin n → K)
    (b : Bfgs K n) (hb : b.isValid = true) (H : Fin n → Fin n → K) :
    ∃ b' H', flBfgsRun R q ty (hist ++ [(x, g)]) b H = some (b', H') ∧ b'.isInit = true ∧ b'.isValid = true ∧ b'.xPrev = x ∧ b'.gPrev = g := by
  have step : ∀ (b : Bfgs K n) (x g : Fin n → K) (H : Fin n → Fin n → K), b.isValid = true → ∃ b' H', flBfgsUpdate R q ty b x g H = some (b', H') ∧
      b'.isInit = true ∧ b'.isValid = true ∧ b'.xPrev = x ∧ b'.gPrev = g := by
    intro b x g H hb
    unfold flBfgsUpdate
    by_cases hi : b.isInit = false
    · rw [if_pos hi]
      exact ⟨{ b with xPrev := x, gPrev := g, isInit := true }, H, by simp [Bfgs.init, hb], rfl, hb, rfl, rfl⟩
    · rw [if_neg hi]
      simp only
      split_ifs
      · exact ⟨_, _, rfl, by simpa using hi, hb, rfl, rfl⟩
      · exact ⟨_, _, rfl, by simpa using hi, hb, rfl, rfl⟩
  induction hist generalizing b H with
  | nil =>
    obtain ⟨b', H', h1, h2⟩ := step b x g H hb
    refine ⟨b', H', ?_, h2⟩
    simp [flBfgsRun, h1]
  | cons c l ih =>
    obtain ⟨b', H', h1, h2, h3, h4⟩ := step b c.1 c.2 H hb
    obtain ⟨b2, H2, k1, k2⟩ := ih b' h3 H'
    refine ⟨b2, H2, ?_, k2⟩
    rw [List.cons_append, flBfgsRun, h1, Option.bind_some]
    exact k1

end

namespace Demo

/-- products added one after the other from the left, each rounded first (no fused operation) -/
def plainTree (n : ℕ) : SumTree (Fin n) := (List.ofFn (id : Fin n → Fin n)).foldl (fun t i => .add t (.prod i)) .zero

def plainOrders (n : ℕ) : BfgsOrders n := ⟨plainTree n, fun _ _ => plainTree n, fun _ _ => plainTree n⟩

end Demo

theorem plainTree_sums (n : ℕ) : SumsProducts (Demo.plainTree n) (n + 1) := by
  have key : ∀ (l : List (Fin n)) (t : SumTree (Fin n)) (m : ℕ), t.depth ≤ m + 1 →
      ((l.foldl (fun t i => SumTree.add t (.prod i)) t).terms.filterMap id = t.terms.filterMap id ++ l) ∧
      (l.foldl (fun t i => SumTree.add t (.prod i)) t).depth ≤ m + l.length + 1 := by
    intro l
    induction l with
    | nil => intro t m h; exact ⟨by simp, by simpa using h⟩
    | cons a l ih =>
      intro t m h
      obtain ⟨h1, h2⟩ := ih (SumTree.add t (.prod a)) (m + 1) (by simp only [SumTree.depth]; omega)
      rw [List.foldl_cons]
      refine ⟨?_, ?_⟩
      · rw [h1]; simp [SumTree.terms]
      · rw [List.length_cons]; omega
  obtain ⟨h1, h2⟩ := key (List.ofFn id) .zero 0 (by simp [SumTree.depth])
  refine ⟨?_, ?_⟩
  · rw [Demo.plainTree, h1]; simp [SumTree.terms]
  · refine h2.trans ?_
    simp

/-- Sums accumulated from the left meet the hypothesis for every size, with `d = n + 1`. -/
theorem C106_plain (n : ℕ) : BfgsOrdersSum (Demo.plainOrders n) (n + 1) :=
  ⟨plainTree_sums n, fun _ _ => plainTree_sums n, fun _ _ => plainTree_sums n⟩

/-- the hypotheses of the theorems above are met: 53-bit arithmetic, plain sums, an initialised strategy, the identity -/
example : (bitsRounding 53 (by norm_num)).eta = 0 ∧ BfgsOrdersSum (Demo.plainOrders 3) 4 ∧ PosDef (1 : Matrix (Fin 3) (Fin 3) ℚ) := by
  refine ⟨rfl, C106_plain 3, fun v hv => ?_⟩
  rw [quad_eq_dot, Matrix.one_mulVec]
  obtain ⟨i, hi⟩ := Function.ne_iff.1 hv
  exact Finset.sum_pos' (fun j _ => mul_self_nonneg _) ⟨i, Finset.mem_univ _, mul_self_pos.2 hi⟩

/-- a step whose curvature is far from rounding level -/
example : ∃ b' H', flBfgsUpdate (bitsRounding 53 (by norm_num)) (Demo.plainOrders 2) .hessian ⟨true, true, ![0, 0], ![0, 0], true⟩
    ![1, 2] ![3, 4] (fun i j => if i = j then 1 else 0) = some (b', H') ∧ b'.isPsd = true := by
  obtain ⟨b', H', h1, h2⟩ := C106_decision (bitsRounding 53 (by norm_num)) rfl (Demo.plainOrders 2) 3 (C106_plain 2) .hessian
    ⟨true, true, ![0, 0], ![0, 0], true⟩ rfl ![1, 2] ![3, 4] (fun i j => if i = j then 1 else 0)
    (by decide +kernel) (by decide +kernel) (by decide +kernel)
  exact ⟨b', H', h1, h2.2 (by decide +kernel)⟩

/-- In double precision neither symmetry nor positive definiteness survives: after two updates from the identity with positive
curvature, and `is_psd` set, the matrix is not symmetric and its form is negative along the last step `(2, 3)`, where the secant equation
gives it the value 10. -/
theorem C106_spd_false :
    ∃ b' H', flBfgsRun binary64 (Demo.plainOrders 2) .hessian
        [(![0, 0], ![0, 0]), (![-1, 0], ![-1, 2 ^ 27]), (![1, 3], ![1, 2 ^ 27 + 2])] Bfgs.new (fun i j => if i = j then 1 else 0) = some (b', H') ∧
      b'.isPsd = true ∧ H' 0 1 ≠ H' 1 0 ∧ ∑ i, ∑ j, (![2, 3] : Fin 2 → ℚ) i * H' i j * (![2, 3] : Fin 2 → ℚ) j < 0 ∧
      (∀ i, binary64.rnd ((![1, 3] : Fin 2 → ℚ) i) = ![1, 3] i) ∧ (∀ i, binary64.rnd ((![1, 2 ^ 27 + 2] : Fin 2 → ℚ) i) = ![1, 2 ^ 27 + 2] i) := by
  have key : (flBfgsRun binary64 (Demo.plainOrders 2) .hessian
      [(![0, 0], ![0, 0]), (![-1, 0], ![-1, 2 ^ 27]), (![1, 3], ![1, 2 ^ 27 + 2])] Bfgs.new (fun i j => if i = j then 1 else 0)).map
      (fun r => (r.1.isPsd, decide (r.2 0 1 ≠ r.2 1 0),
        decide (∑ i, ∑ j, (![2, 3] : Fin 2 → ℚ) i * r.2 i j * (![2, 3] : Fin 2 → ℚ) j < 0))) = some (true, true, true) := by decide +kernel
  obtain ⟨r, h1, h2⟩ := Option.map_eq_some_iff.1 key
  simp only [Prod.mk.injEq, decide_eq_true_eq] at h2
  exact ⟨r.1, r.2, h1, h2.1, h2.2.1, h2.2.2, by decide +kernel, by decide +kernel⟩

/-- The computed curvature may have the wrong sign: here `sᵀy = -1/2`, the differences are exact, and the update is applied. -/
theorem C106_curvature_false :
    let x : Fin 4 → ℚ := ![1, 1, 1, 1]
    let g : Fin 4 → ℚ := ![2 ^ 60, -1, -2 ^ 60, 1 / 2]
    ∃ b' H', flBfgsRun binary64 (Demo.plainOrders 4) .hessian [(fun _ => 0, fun _ => 0), (x, g)] Bfgs.new (fun i j => if i = j then 1 else 0) =
        some (b', H') ∧ ∑ i, (x i - 0) * (g i - 0) < 0 ∧ b'.isPsd = true ∧ H' ≠ fun i j => if i = j then 1 else 0 := by
  intro x g
  have key : (flBfgsRun binary64 (Demo.plainOrders 4) .hessian [(fun _ => 0, fun _ => 0), (![1, 1, 1, 1], ![2 ^ 60, -1, -2 ^ 60, 1 / 2])]
      Bfgs.new (fun i j => if i = j then 1 else 0)).map (fun r => (r.1.isPsd, decide (r.2 0 0 ≠ 1))) = some (true, true) := by decide +kernel
  obtain ⟨r, h1, h2⟩ := Option.map_eq_some_iff.1 key
  simp only [Prod.mk.injEq, decide_eq_true_eq] at h2
  refine ⟨r.1, r.2, h1, by decide +kernel, h2.1, fun h => h2.2 ?_⟩
  rw [h]; rfl

end ProxNLP
