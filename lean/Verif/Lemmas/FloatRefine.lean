import Verif.Spec.FloatRefine
import Verif.Lemmas.FloatSolver
import Verif.Lemmas.Math

/-! Error analysis of the rounded iterative refinement. -/

set_option linter.unusedSectionVars false
namespace ProxNLP

open Spec

variable {K : Type} [Field K] [LinearOrder K] [IsStrictOrderedRing K] {N : ℕ}

theorem flKktErr_err (R : Rounding K) {t : Fin N → SumTree (Fin N)} {d c : ℕ} (ht : RowsSum t d c) (A : Fin N → Fin N → K)
    (rhs s : Fin N → K) (i : Fin N) :
    |flKktErr R t A rhs s i + kktRow A rhs s i| ≤ ((1 + R.u) ^ d - 1) * kktRowAbs A rhs s i + c * R.eta * (1 + R.u) ^ d := by
  obtain ⟨h1, h2, h3⟩ := ht i
  have key := sumTree_error R (-rhs i) (fun j => (-A i j, s j)) (t i)
  rw [SumTree.exact, SumTree.absSum, sumsAll_sum h1, sumsAll_sum h1] at key
  have e1 : termVal (-rhs i) (fun j => (-A i j, s j)) none + ∑ j, termVal (-rhs i) (fun j => (-A i j, s j)) (some j) = -kktRow A rhs s i := by
    simp only [termVal, kktRow, neg_mul, Finset.sum_neg_distrib]; ring
  have e2 : |termVal (-rhs i) (fun j => (-A i j, s j)) none| + ∑ j, |termVal (-rhs i) (fun j => (-A i j, s j)) (some j)| = kktRowAbs A rhs s i := by
    simp only [termVal, kktRowAbs, neg_mul, abs_neg]; ring
  rw [e1, e2, sub_neg_eq_add] at key
  have hA : 0 ≤ kktRowAbs A rhs s i := add_nonneg (Finset.sum_nonneg fun _ _ => abs_nonneg _) (abs_nonneg _)
  have g1 := G_mono R h2
  have g2 : ((t i).count : K) * R.eta * (1 + R.u) ^ (t i).depth ≤ c * R.eta * (1 + R.u) ^ d :=
    mul_le_mul (mul_le_mul_of_nonneg_right (Nat.cast_le.2 h3) R.eta_nonneg) g1 (by linarith [one_le_G R (t i).depth])
      (mul_nonneg (Nat.cast_nonneg _) R.eta_nonneg)
  exact key.trans (add_le_add (mul_le_mul_of_nonneg_right (by linarith) hA) g2)

theorem inftyNorm_le_of {z : Fin N → K} {t : K} (h0 : 0 ≤ t) (h : ∀ i, |z i| ≤ t) : inftyNorm z ≤ t := (inftyNorm_le_iff z t).2 ⟨h0, h⟩

theorem abs_row_le {A : Fin N → Fin N → K} {α : K} (hα : ∀ i, ∑ j, |A i j| ≤ α) (v : Fin N → K) (i : Fin N) :
    ∑ j, |A i j * v j| ≤ α * inftyNorm v := by
  refine le_trans (Finset.sum_le_sum fun j _ => ?_) ((Finset.sum_mul _ _ _).symm.le.trans (mul_le_mul_of_nonneg_right (hα i) (inftyNorm_nonneg v)))
  rw [abs_mul]
  exact mul_le_mul_of_nonneg_left (abs_le_inftyNorm v j) (abs_nonneg _)

theorem flRefine_step (R : Rounding K) (hR : R.eta = 0) {t : Fin N → SumTree (Fin N)} {d c : ℕ} (ht : RowsSum t d c) {A : Fin N → Fin N → K}
    {α ν : K} (hα0 : 0 ≤ α) (hν0 : 0 ≤ ν) (hA : CondBounds A α ν) {q : K} (hq : 0 ≤ q) (rhs : Fin N → K) (solve : (Fin N → K) → Fin N → K)
    (hs : ∀ b : Fin N → K, (inftyNorm fun i => b i - ∑ j, A i j * solve b j) ≤ q * inftyNorm b) (s : Fin N → K) :
    inftyNorm (flKktErr R t A rhs s) ≤ (1 + ((1 + R.u) ^ d - 1) * (α * ν)) * inftyNorm (kktRow A rhs s) +
      ((1 + R.u) ^ d - 1) * (1 + α * ν) * inftyNorm rhs ∧
    inftyNorm (kktRow A rhs fun i => R.rnd (s i + solve (flKktErr R t A rhs s) i)) ≤
      refineRate R.u ((1 + R.u) ^ d - 1) (α * ν) q * inftyNorm (kktRow A rhs s) +
      refineFloor R.u ((1 + R.u) ^ d - 1) (α * ν) q * inftyNorm rhs := by
  have hγ : 0 ≤ (1 + R.u) ^ d - 1 := sub_nonneg.2 (one_le_G R d)
  have hu := R.u_nonneg
  have hκ : 0 ≤ α * ν := mul_nonneg hα0 hν0
  generalize hγe : (1 + R.u) ^ d - 1 = γ at *
  have hb := inftyNorm_nonneg rhs
  -- a point is bounded by its residual
  have hsb : ∀ z : Fin N → K, α * inftyNorm z ≤ α * ν * (inftyNorm (kktRow A rhs z) + inftyNorm rhs) := by
    intro z
    rw [mul_assoc]
    refine mul_le_mul_of_nonneg_left ((hA.inv z).trans (mul_le_mul_of_nonneg_left ?_ hν0)) hα0
    refine inftyNorm_le_of (add_nonneg (inftyNorm_nonneg _) hb) fun i => ?_
    have e : ∑ j, A i j * z j = kktRow A rhs z i - rhs i := by unfold kktRow; ring
    rw [e]
    exact (abs_sub _ _).trans (add_le_add (abs_le_inftyNorm (kktRow A rhs z) i) (abs_le_inftyNorm rhs i))
  -- error of the computed residual
  have hε : ∀ i, |flKktErr R t A rhs s i + kktRow A rhs s i| ≤ γ * (α * ν) * inftyNorm (kktRow A rhs s) + γ * (1 + α * ν) * inftyNorm rhs := by
    intro i
    have h1 := flKktErr_err R ht A rhs s i
    rw [hR, mul_zero, zero_mul, add_zero, hγe] at h1
    refine h1.trans ?_
    have h2 : kktRowAbs A rhs s i ≤ α * ν * (inftyNorm (kktRow A rhs s) + inftyNorm rhs) + inftyNorm rhs :=
      add_le_add ((abs_row_le hA.row s i).trans (hsb s)) (abs_le_inftyNorm rhs i)
    have := mul_le_mul_of_nonneg_left h2 hγ
    linarith
  generalize flKktErr R t A rhs s = r at *
  have hr0 := inftyNorm_nonneg (kktRow A rhs s)
  generalize hρ : inftyNorm (kktRow A rhs s) = ρ at *
  generalize hβ : inftyNorm rhs = β at *
  have hE0 : 0 ≤ γ * (α * ν) * ρ + γ * (1 + α * ν) * β := by positivity
  generalize hE : γ * (α * ν) * ρ + γ * (1 + α * ν) * β = E at *
  have hr : inftyNorm r ≤ ρ + E := by
    refine inftyNorm_le_of (by linarith) fun i => ?_
    have h1 : |r i| ≤ |r i + kktRow A rhs s i| + |kktRow A rhs s i| := by
      simpa using abs_sub (r i + kktRow A rhs s i) (kktRow A rhs s i)
    have h2 := abs_le_inftyNorm (kktRow A rhs s) i
    have h3 := hε i
    linarith
  refine ⟨?_, ?_⟩
  · have : (1 + γ * (α * ν)) * ρ + γ * (1 + α * ν) * β = ρ + E := by rw [← hE]; ring
    rw [this]; exact hr
  -- the exact sum `s + solve r`
  · have hw : inftyNorm (kktRow A rhs fun i => s i + solve r i) ≤ q * (ρ + E) + E := by
      refine inftyNorm_le_of (by positivity) fun i => ?_
      have e : kktRow A rhs (fun i => s i + solve r i) i = (r i + kktRow A rhs s i) - (r i - ∑ j, A i j * solve r j) := by
        simp only [kktRow, mul_add, Finset.sum_add_distrib]; ring
      rw [e]
      have h1 := abs_sub (r i + kktRow A rhs s i) (r i - ∑ j, A i j * solve r j)
      have h2 := (abs_le_inftyNorm (fun i => r i - ∑ j, A i j * solve r j) i).trans ((hs r).trans (mul_le_mul_of_nonneg_left hr hq))
      have h3 := hε i
      linarith
    have hw0 := inftyNorm_nonneg (kktRow A rhs fun i => s i + solve r i)
    have hαw := hsb fun i => s i + solve r i
    generalize hω : inftyNorm (kktRow A rhs fun i => s i + solve r i) = ω at *
    have hfin : inftyNorm (kktRow A rhs fun i => R.rnd (s i + solve r i)) ≤ ω + R.u * (α * ν * (ω + β)) := by
      refine inftyNorm_le_of (by positivity) fun i => ?_
      have e : kktRow A rhs (fun i => R.rnd (s i + solve r i)) i =
          kktRow A rhs (fun i => s i + solve r i) i + ∑ j, A i j * (R.rnd (s j + solve r j) - (s j + solve r j)) := by
        simp only [kktRow, mul_sub, Finset.sum_sub_distrib]; ring
      rw [e]
      refine (abs_add_le _ _).trans (add_le_add (hω ▸ abs_le_inftyNorm (kktRow A rhs fun i => s i + solve r i) i) ?_)
      refine (Finset.abs_sum_le_sum_abs _ _).trans ?_
      have h1 := abs_row_le hA.row (fun j => s j + solve r j) i
      have h2 : ∑ j, |A i j * (R.rnd (s j + solve r j) - (s j + solve r j))| ≤ R.u * ∑ j, |A i j * (s j + solve r j)| := by
        rw [Finset.mul_sum]
        refine Finset.sum_le_sum fun j _ => ?_
        have h3 := R.err (s j + solve r j)
        rw [hR, add_zero] at h3
        rw [abs_mul, abs_mul]
        have := mul_le_mul_of_nonneg_left h3 (abs_nonneg (A i j))
        linarith
      exact h2.trans (mul_le_mul_of_nonneg_left (h1.trans hαw) hu)
    refine hfin.trans ?_
    have hk : 0 ≤ 1 + α * ν * R.u := by positivity
    have h5 := mul_le_mul_of_nonneg_left hw hk
    have e1 : ω + R.u * (α * ν * (ω + β)) = (1 + α * ν * R.u) * ω + α * ν * R.u * β := by ring
    rw [e1]
    refine (add_le_add_left h5 _).trans (le_of_eq ?_)
    rw [← hE, refineRate, refineFloor]
    ring

theorem refineRate_ge {u γ κ q : K} (hu : 0 ≤ u) (hγ : 0 ≤ γ) (hκ : 0 ≤ κ) (hq : 0 ≤ q) : q ≤ refineRate u γ κ q := by
  have : refineRate u γ κ q = q + (κ * u * q + (1 + κ * u) * ((1 + q) * (γ * κ))) := by unfold refineRate; ring
  rw [this]
  have : 0 ≤ κ * u * q + (1 + κ * u) * ((1 + q) * (γ * κ)) := by positivity
  linarith

theorem refineFloor_nonneg {u γ κ q : K} (hu : 0 ≤ u) (hγ : 0 ≤ γ) (hκ : 0 ≤ κ) (hq : 0 ≤ q) : 0 ≤ refineFloor u γ κ q := by
  unfold refineFloor; positivity

theorem refine_first {A : Fin N → Fin N → K} {q : K} (rhs : Fin N → K) (solve : (Fin N → K) → Fin N → K)
    (hs : ∀ b : Fin N → K, (inftyNorm fun i => b i - ∑ j, A i j * solve b j) ≤ q * inftyNorm b) (hq : 0 ≤ q) :
    inftyNorm (kktRow A rhs (solve fun i => -rhs i)) ≤ q * inftyNorm rhs := by
  have h1 := hs fun i => -rhs i
  have h2 : (inftyNorm fun i => -rhs i) ≤ inftyNorm rhs :=
    inftyNorm_le_of (inftyNorm_nonneg _) fun i => by rw [abs_neg]; exact abs_le_inftyNorm rhs i
  refine inftyNorm_le_of (mul_nonneg hq (inftyNorm_nonneg _)) fun i => ?_
  have e : kktRow A rhs (solve fun i => -rhs i) i = -(-rhs i - ∑ j, A i j * (solve fun i => -rhs i) j) := by unfold kktRow; ring
  rw [e, abs_neg]
  exact (abs_le_inftyNorm (fun i => -rhs i - ∑ j, A i j * (solve fun i => -rhs i) j) i).trans (h1.trans (mul_le_mul_of_nonneg_left h2 hq))

end ProxNLP
