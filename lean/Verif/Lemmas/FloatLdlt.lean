import Verif.Spec.FloatLdlt
import Verif.Lemmas.Rounding
import Verif.Lemmas.DenseLdlt
import Mathlib.Algebra.Order.BigOperators.Group.Finset
import Mathlib.Algebra.Order.BigOperators.Ring.Finset

/-! Error analysis of the rounded dense LDLT factorisation. -/

set_option linter.unusedSectionVars false
namespace ProxNLP

open Spec

variable {K : Type} [Field K] [LinearOrder K] [IsStrictOrderedRing K]

theorem list_range_sum (f : ℕ → K) (m : ℕ) : ((List.range m).map f).sum = ∑ k ∈ Finset.range m, f k := by
  induction m with
  | zero => simp
  | succ m ih => rw [List.range_succ, List.map_append, List.sum_append, ih, Finset.sum_range_succ]; simp

/-- `1 / (1 - u)` -/
def vfac (R : Rounding K) : K := 1 / (1 - R.u)

theorem vfac_pos (R : Rounding K) : 0 < 1 - R.u := by linarith [R.u_lt_one]

theorem one_add_le_vfac (R : Rounding K) : 1 + R.u ≤ vfac R := by
  rw [vfac, le_div_iff₀ (vfac_pos R)]
  nlinarith [R.u_nonneg, mul_nonneg R.u_nonneg R.u_nonneg]

theorem one_le_vfac (R : Rounding K) : 1 ≤ vfac R := by linarith [one_add_le_vfac R, R.u_nonneg]

theorem one_le_vpow (R : Rounding K) (d : ℕ) : 1 ≤ vfac R ^ d := one_le_pow₀ (one_le_vfac R)

theorem vpow_mono (R : Rounding K) {d e : ℕ} (h : d ≤ e) : vfac R ^ d ≤ vfac R ^ e := pow_le_pow_right₀ (one_le_vfac R) h

theorem gpow_le_vpow (R : Rounding K) (d : ℕ) : (1 + R.u) ^ d ≤ vfac R ^ d :=
  pow_le_pow_left₀ (by linarith [R.u_nonneg]) (one_add_le_vfac R) d

/-- a rounded sum with at most `d` roundings per term -/
theorem sumsTo_err (R : Rounding K) (he : R.eta = 0) {t : SumTree ℕ} {m d : ℕ} (h : SumsTo t m d) (a : K) (f : ℕ → K × K) :
    |t.eval R a f - (a + ∑ k ∈ Finset.range m, (f k).1 * (f k).2)| ≤
      ((1 + R.u) ^ d - 1) * (|a| + ∑ k ∈ Finset.range m, |(f k).1 * (f k).2|) := by
  have h0 := sumTree_error R a f t
  have e1 : t.exact a f = a + ∑ k ∈ Finset.range m, (f k).1 * (f k).2 := by
    rw [SumTree.exact, (h.1.map _).sum_eq, List.map_cons, List.sum_cons, List.map_map, list_range_sum]
    rfl
  have e2 : t.absSum a f = |a| + ∑ k ∈ Finset.range m, |(f k).1 * (f k).2| := by
    rw [SumTree.absSum, (h.1.map _).sum_eq, List.map_cons, List.sum_cons, List.map_map, list_range_sum]
    rfl
  rw [he, e1] at h0
  have h1 := mul_le_mul_of_nonneg_right (sub_le_sub_right (G_mono R h.2) 1) (absSum_nonneg a f t)
  rw [← e2]
  linarith

/-- the terms of a sum are themselves perturbed -/
theorem pert_sum {m : ℕ} {v a G1 G2 : K} {f f' : ℕ → K} (h1 : 1 ≤ G1) (h2 : 1 ≤ G2) (hf : ∀ k < m, |f' k - f k| ≤ (G2 - 1) * |f k|)
    (hv : |v - (a - ∑ k ∈ Finset.range m, f' k)| ≤ (G1 - 1) * (|a| + ∑ k ∈ Finset.range m, |f' k|)) :
    |v - (a - ∑ k ∈ Finset.range m, f k)| ≤ (G1 * G2 - 1) * (|a| + ∑ k ∈ Finset.range m, |f k|) := by
  have hF : 0 ≤ ∑ k ∈ Finset.range m, |f k| := Finset.sum_nonneg fun _ _ => abs_nonneg _
  have s1 : ∑ k ∈ Finset.range m, |f' k| ≤ G2 * ∑ k ∈ Finset.range m, |f k| := by
    rw [Finset.mul_sum]
    refine Finset.sum_le_sum fun k hk => ?_
    have := hf k (Finset.mem_range.1 hk)
    have h3 : |f' k| ≤ |f' k - f k| + |f k| := by simpa using abs_add_le (f' k - f k) (f k)
    linarith
  have s2 : |∑ k ∈ Finset.range m, f' k - ∑ k ∈ Finset.range m, f k| ≤ (G2 - 1) * ∑ k ∈ Finset.range m, |f k| := by
    rw [← Finset.sum_sub_distrib, Finset.mul_sum]
    refine (Finset.abs_sum_le_sum_abs _ _).trans (Finset.sum_le_sum fun k hk => hf k (Finset.mem_range.1 hk))
  have s3 : |v - (a - ∑ k ∈ Finset.range m, f k)| ≤ |v - (a - ∑ k ∈ Finset.range m, f' k)| +
      |∑ k ∈ Finset.range m, f' k - ∑ k ∈ Finset.range m, f k| := by
    rw [abs_sub_comm (∑ k ∈ Finset.range m, f' k)]
    refine le_trans (le_of_eq ?_) (abs_add_le _ _)
    congr 1; ring
  have s4 : (G1 - 1) * (|a| + ∑ k ∈ Finset.range m, |f' k|) ≤ (G1 - 1) * (|a| + G2 * ∑ k ∈ Finset.range m, |f k|) :=
    mul_le_mul_of_nonneg_left (by linarith) (by linarith)
  have s5 : 0 ≤ G1 * (G2 - 1) * |a| := by
    have : 0 ≤ G1 * (G2 - 1) := mul_nonneg (by linarith) (by linarith)
    exact mul_nonneg this (abs_nonneg _)
  linarith

theorem near_mul {v e w S G1 G2 : K} (h1 : |v - e| ≤ (G1 - 1) * S) (he : |e| ≤ S) (hG : 1 ≤ G2) (h2 : |w - v| ≤ (G2 - 1) * |v|) :
    |w - e| ≤ (G1 * G2 - 1) * S := by
  have h3 : |v| ≤ |v - e| + |e| := by simpa using abs_add_le (v - e) e
  have h4 : |w - e| ≤ |w - v| + |v - e| := by simpa using abs_add_le (w - v) (v - e)
  have h5 : (G2 - 1) * |v| ≤ (G2 - 1) * (G1 * S) := mul_le_mul_of_nonneg_left (by linarith) (by linarith)
  linarith

theorem abs_sub_sum_le (a : K) (f : ℕ → K) (m : ℕ) :
    |a - ∑ k ∈ Finset.range m, f k| ≤ |a| + ∑ k ∈ Finset.range m, |f k| := by
  have := abs_sub a (∑ k ∈ Finset.range m, f k)
  have h2 := Finset.abs_sum_le_sum_abs f (Finset.range m)
  linarith

theorem rnd_rel (R : Rounding K) (he : R.eta = 0) (x : K) : |R.rnd x - x| ≤ R.u * |x| := by
  have := R.err x
  rwa [he, add_zero] at this

/-- the relative error seen from the other side -/
theorem rel_flip (R : Rounding K) {w x : K} (h : |w - x| ≤ R.u * |x|) : |x - w| ≤ (vfac R - 1) * |w| := by
  have h0 := vfac_pos R
  have h1 : |x| ≤ |x - w| + |w| := by simpa using abs_add_le (x - w) w
  rw [abs_sub_comm] at h
  have h2 : (vfac R - 1) = R.u / (1 - R.u) := by rw [vfac]; field_simp; ring
  rw [h2, div_mul_eq_mul_div, le_div_iff₀ h0]
  have h3 : R.u * |x| ≤ R.u * (|x - w| + |w|) := mul_le_mul_of_nonneg_left h1 R.u_nonneg
  linarith

/-- multiplication by the rounded reciprocal of the pivot -/
theorem scale_err (R : Rounding K) (he : R.eta = 0) (x : K) {p : K} (hp : p ≠ 0) :
    |R.rnd (x * R.rnd (1 / p)) * p - x| ≤ ((1 + R.u) ^ 2 - 1) * |x| ∧
    |x - R.rnd (x * R.rnd (1 / p)) * p| ≤ (vfac R ^ 2 - 1) * |R.rnd (x * R.rnd (1 / p)) * p| := by
  have h1 := rnd_rel R he (1 / p)
  have h2 := rnd_rel R he (x * R.rnd (1 / p))
  generalize R.rnd (1 / p) = r at *
  generalize R.rnd (x * r) = M at *
  have a1 : |x * r * p - x| ≤ R.u * |x| := by
    have : x * r * p - x = x * p * (r - 1 / p) := by field_simp
    rw [this, abs_mul, abs_mul]
    have h3 := mul_le_mul_of_nonneg_left h1 (mul_nonneg (abs_nonneg x) (abs_nonneg p))
    refine h3.trans (le_of_eq ?_)
    rw [abs_div, abs_one]
    have : |p| ≠ 0 := abs_ne_zero.2 hp
    field_simp
  have a2 : |M * p - x * r * p| ≤ R.u * |x * r * p| := by
    rw [← sub_mul, abs_mul, abs_mul (x * r)]
    have h3 := mul_le_mul_of_nonneg_right h2 (abs_nonneg p)
    linarith
  constructor
  · have b1 : |x * r * p| ≤ |x * r * p - x| + |x| := by simpa using abs_add_le (x * r * p - x) x
    have b2 : |M * p - x| ≤ |M * p - x * r * p| + |x * r * p - x| := by simpa using abs_add_le (M * p - x * r * p) (x * r * p - x)
    have b3 := mul_le_mul_of_nonneg_left b1 R.u_nonneg
    have b4 := mul_le_mul_of_nonneg_left a1 R.u_nonneg
    have e : ((1 + R.u) ^ 2 - 1) * |x| = R.u * |x| + R.u * |x| + R.u * (R.u * |x|) := by ring
    linarith
  · have c1 := rel_flip R a1
    have c2 := rel_flip R a2
    have h0 := one_le_vfac R
    have b1 : |x * r * p| ≤ |x * r * p - M * p| + |M * p| := by simpa using abs_add_le (x * r * p - M * p) (M * p)
    have b2 : |x - M * p| ≤ |x - x * r * p| + |x * r * p - M * p| := by simpa using abs_add_le (x - x * r * p) (x * r * p - M * p)
    have b3 : (vfac R - 1) * |x * r * p| ≤ (vfac R - 1) * (vfac R * |M * p|) :=
      mul_le_mul_of_nonneg_left (by linarith) (by linarith)
    have e : (vfac R ^ 2 - 1) * |M * p| = (vfac R - 1) * (vfac R * |M * p|) + (vfac R - 1) * |M * p| := by ring
    linarith

/-- the entry of `L D` on or below the diagonal -/
def leadLd (M : ℕ → ℕ → K) (i c : ℕ) : K := if i = c then M c c else M i c * M c c

/-- the factors stored in `M` reproduce the lower half of `A` up to a factor `G` -/
def NearLdl (G : K) (n : ℕ) (A M : ℕ → ℕ → K) : Prop :=
  ∀ i < n, ∀ c ≤ i, |leadLd M i c - (A i c - ∑ k ∈ Finset.range c, M i k * M k k * M c k)| ≤
    (G - 1) * (|A i c| + ∑ k ∈ Finset.range c, |M i k * M k k * M c k|)

theorem NearLdl.congr {G : K} {n : ℕ} {A A' M M' : ℕ → ℕ → K} (h : NearLdl G n A M) (hA : ∀ i < n, ∀ c ≤ i, A' i c = A i c)
    (hM : ∀ i < n, ∀ c ≤ i, M' i c = M i c) : NearLdl G n A' M' := by
  intro i hi c hc
  have h1 : ∀ k ∈ Finset.range c, M' i k * M' k k * M' c k = M i k * M k k * M c k := by
    intro k hk
    rw [Finset.mem_range] at hk
    rw [hM i hi k (by omega), hM k (by omega) k le_rfl, hM c (by omega) k (by omega)]
  have h2 : leadLd M' i c = leadLd M i c := by
    simp only [leadLd]
    rw [hM c (by omega) c le_rfl, hM i hi c hc]
  have h3 : ∑ k ∈ Finset.range c, |M' i k * M' k k * M' c k| = ∑ k ∈ Finset.range c, |M i k * M k k * M c k| :=
    Finset.sum_congr rfl fun k hk => by rw [h1 k hk]
  rw [hA i hi c hc, h2, h3, Finset.sum_congr rfl h1]
  exact h i hi c hc

theorem NearLdl.mono {G G' : K} (hG : G ≤ G') {n : ℕ} {A M : ℕ → ℕ → K} (h : NearLdl G n A M) : NearLdl G' n A M := by
  intro i hi c hc
  refine (h i hi c hc).trans (mul_le_mul_of_nonneg_right (by linarith) ?_)
  exact add_nonneg (abs_nonneg _) (Finset.sum_nonneg fun _ _ => abs_nonneg _)

/-- composition of block factorisations -/
theorem NearLdl.append {G G' G2 : K} {b m : ℕ} {A A2 M : ℕ → ℕ → K} (h1 : 1 ≤ G') (h2 : 1 ≤ G2) (hG : G' * G2 ≤ G)
    (h0 : NearLdl G b A M)
    (h10 : ∀ i < m, ∀ c < b, |M (b + i) c * M c c - (A (b + i) c - ∑ k ∈ Finset.range c, M (b + i) k * M k k * M c k)| ≤
      (G - 1) * (|A (b + i) c| + ∑ k ∈ Finset.range c, |M (b + i) k * M k k * M c k|))
    (hS : ∀ i < m, ∀ c ≤ i, |A2 i c - (A (b + i) (b + c) - ∑ k ∈ Finset.range b, M (b + i) k * M k k * M (b + c) k)| ≤
      (G2 - 1) * (|A (b + i) (b + c)| + ∑ k ∈ Finset.range b, |M (b + i) k * M k k * M (b + c) k|))
    (h11 : NearLdl G' m A2 (fun i j => M (b + i) (b + j))) : NearLdl G (b + m) A M := by
  intro i hi c hc
  by_cases hcb : c < b
  · by_cases hib : i < b
    · exact h0 i hib c hc
    · obtain ⟨i', rfl⟩ : ∃ i', i = b + i' := ⟨i - b, by omega⟩
      have := h10 i' (by omega) c hcb
      rw [leadLd, if_neg (by omega)]
      exact this
  · obtain ⟨c', rfl⟩ : ∃ c', c = b + c' := ⟨c - b, by omega⟩
    obtain ⟨i', rfl⟩ : ∃ i', i = b + i' := ⟨i - b, by omega⟩
    have k1 := h11 i' (by omega) c' (by omega)
    have k2 := hS i' (by omega) c' (by omega)
    have e1 : leadLd (fun i j => M (b + i) (b + j)) i' c' = leadLd M (b + i') (b + c') := by
      simp only [leadLd]
      by_cases h : i' = c'
      · rw [if_pos h, if_pos (by omega)]
      · rw [if_neg h, if_neg (by omega)]
    rw [e1] at k1
    rw [Finset.sum_range_add, Finset.sum_range_add]
    set s1 := ∑ k ∈ Finset.range b, M (b + i') k * M k k * M (b + c') k
    set s2 := ∑ k ∈ Finset.range c', M (b + i') (b + k) * M (b + k) (b + k) * M (b + c') (b + k)
    have n1 : |s1| ≤ ∑ k ∈ Finset.range b, |M (b + i') k * M k k * M (b + c') k| := Finset.abs_sum_le_sum_abs _ _
    set t1 := ∑ k ∈ Finset.range b, |M (b + i') k * M k k * M (b + c') k|
    have n2 : 0 ≤ ∑ k ∈ Finset.range c', |M (b + i') (b + k) * M (b + k) (b + k) * M (b + c') (b + k)| :=
      Finset.sum_nonneg fun _ _ => abs_nonneg _
    set t2 := ∑ k ∈ Finset.range c', |M (b + i') (b + k) * M (b + k) (b + k) * M (b + c') (b + k)|
    set a := A (b + i') (b + c')
    set x := leadLd M (b + i') (b + c')
    set y := A2 i' c'
    have n3 := abs_nonneg a
    have q1 : |x - (a - (s1 + s2))| ≤ |x - (y - s2)| + |y - (a - s1)| := by
      refine le_trans (le_of_eq ?_) (abs_add_le _ _)
      congr 1; ring
    have q2 : |y| ≤ G2 * (|a| + t1) := by
      have u1 : |y| ≤ |y - (a - s1)| + |a - s1| := by simpa using abs_add_le (y - (a - s1)) (a - s1)
      have u2 := abs_sub a s1
      linarith
    have q3 : (G' - 1) * (|y| + t2) ≤ (G' - 1) * (G2 * (|a| + t1) + t2) := mul_le_mul_of_nonneg_left (by linarith) (by linarith)
    have q4 : 0 ≤ G' * (G2 - 1) * t2 := mul_nonneg (mul_nonneg (by linarith) (by linarith)) n2
    have q5 : (G' * G2 - 1) * (|a| + (t1 + t2)) ≤ (G - 1) * (|a| + (t1 + t2)) :=
      mul_le_mul_of_nonneg_right (by linarith) (by linarith [abs_nonneg s1])
    linarith

/-! ### unblocked factorisation -/

theorem flLdltStep_lower (R : Rounding K) (q : LdltOrders) (o n j : ℕ) (A : ℕ → ℕ → K) (hj : j < n) :
    (∀ i c, c ≤ i → i < n → c ≠ j → flLdltStep R q o n j A i c = A i c) ∧
    flLdltStep R q o n j A j j = (q.pivot o n j).eval R (A j j) (fun k => (-flLdltWork R n j A k (n - 1), flLdltWork R n j A j k)) ∧
    (∀ i, j < i → i < n → flLdltStep R q o n j A i j =
      R.rnd ((q.column o n j i).eval R (A i j) (fun k => (-flLdltPivot R (q.pivot o n j) n j (flLdltWork R n j A) k (n - 1),
        flLdltPivot R (q.pivot o n j) n j (flLdltWork R n j A) i k)) * R.rnd (1 / flLdltStep R q o n j A j j))) := by
  have hw : ∀ i c, c ≤ i → i < n → flLdltWork R n j A i c = A i c := by
    intro i c hc hi
    simp only [flLdltWork]
    rw [if_neg (by omega)]
  have hpjj : flLdltPivot R (q.pivot o n j) n j (flLdltWork R n j A) j j =
      (q.pivot o n j).eval R (A j j) (fun k => (-flLdltWork R n j A k (n - 1), flLdltWork R n j A j k)) := by
    simp only [flLdltPivot]
    rw [if_pos ⟨trivial, trivial⟩, hw j j le_rfl hj]
  have hp : ∀ i c, c ≤ i → i < n → ¬ (i = j ∧ c = j) → flLdltPivot R (q.pivot o n j) n j (flLdltWork R n j A) i c = A i c := by
    intro i c hc hi hne
    simp only [flLdltPivot]
    rw [if_neg hne, hw i c hc hi]
  simp only [flLdltStep]
  by_cases hlast : j + 1 = n
  · rw [if_pos hlast]
    exact ⟨fun i c hc hi hne => hp i c hc hi (by omega), hpjj, fun i h1 h2 => by omega⟩
  · rw [if_neg hlast]
    have e1 : flLdltColumn R (q.column o n j) n j (flLdltPivot R (q.pivot o n j) n j (flLdltWork R n j A)) j j =
        flLdltPivot R (q.pivot o n j) n j (flLdltWork R n j A) j j := by
      simp only [flLdltColumn]; simp
    have hdiag : flLdltScale R n j (flLdltColumn R (q.column o n j) n j (flLdltPivot R (q.pivot o n j) n j (flLdltWork R n j A))) j j =
        flLdltPivot R (q.pivot o n j) n j (flLdltWork R n j A) j j := by
      rw [← e1]
      simp only [flLdltScale]; simp
    refine ⟨?_, ?_, ?_⟩
    · intro i c hc hi hne
      simp only [flLdltScale, flLdltColumn]
      rw [if_neg (by omega), if_neg (by omega), hp i c hc hi (by omega)]
    · rw [hdiag, hpjj]
    · intro i h1 h2
      rw [hdiag]
      conv_lhs => rw [flLdltScale]
      rw [if_pos ⟨h1, h2, rfl⟩, e1]
      congr 2
      simp only [flLdltColumn]
      rw [if_pos ⟨h1, h2, trivial⟩, hp i j (by omega) h2 (by omega)]

/-- error of one pass, in terms of the entries before it -/
theorem flLdltStep_err (R : Rounding K) (he : R.eta = 0) (q : LdltOrders) {d : ℕ} (o n j : ℕ) (hj : j < n)
    (h1 : SumsTo (q.pivot o n j) j d) (h2 : ∀ i, j < i → i < n → SumsTo (q.column o n j i) j d) (A : ℕ → ℕ → K) :
    |flLdltStep R q o n j A j j - (A j j - ∑ k ∈ Finset.range j, A j k * A k k * A j k)| ≤
      ((1 + R.u) ^ (d + 3) - 1) * (|A j j| + ∑ k ∈ Finset.range j, |A j k * A k k * A j k|) ∧
    (∀ i, j < i → i < n → flLdltStep R q o n j A j j ≠ 0 →
      |flLdltStep R q o n j A i j * flLdltStep R q o n j A j j - (A i j - ∑ k ∈ Finset.range j, A i k * A k k * A j k)| ≤
        ((1 + R.u) ^ (d + 3) - 1) * (|A i j| + ∑ k ∈ Finset.range j, |A i k * A k k * A j k|)) := by
  obtain ⟨s1, s2, s3⟩ := flLdltStep_lower R q o n j A hj
  have hu := R.u_nonneg
  have hwk : ∀ k < j, flLdltWork R n j A k (n - 1) = R.rnd (A j k * A k k) := by
    intro k hk
    simp only [flLdltWork]
    rw [if_pos ⟨hk, trivial⟩]
  have hw : ∀ i c, c ≤ i → i < n → flLdltWork R n j A i c = A i c := by
    intro i c hc hi
    simp only [flLdltWork]
    rw [if_neg (by omega)]
  have hpk : ∀ k < j, flLdltPivot R (q.pivot o n j) n j (flLdltWork R n j A) k (n - 1) = R.rnd (A j k * A k k) := by
    intro k hk
    simp only [flLdltPivot]
    rw [if_neg (by omega), hwk k hk]
  have hpi : ∀ i c, c ≤ i → i < n → ¬ (i = j ∧ c = j) → flLdltPivot R (q.pivot o n j) n j (flLdltWork R n j A) i c = A i c := by
    intro i c hc hi hne
    simp only [flLdltPivot]
    rw [if_neg hne, hw i c hc hi]
  have hrel : ∀ i k, |R.rnd (A j k * A k k) * A i k - A i k * A k k * A j k| ≤ ((1 + R.u) - 1) * |A i k * A k k * A j k| := by
    intro i k
    have := mul_le_mul_of_nonneg_right (rnd_rel R he (A j k * A k k)) (abs_nonneg (A i k))
    rw [← abs_mul, mul_assoc, ← abs_mul] at this
    have e1 : (R.rnd (A j k * A k k) - A j k * A k k) * A i k = R.rnd (A j k * A k k) * A i k - A i k * A k k * A j k := by ring
    have e2 : A j k * A k k * A i k = A i k * A k k * A j k := by ring
    rw [e1, e2] at this
    linarith
  have hsum : ∀ (t : SumTree ℕ) (a : K) (i : ℕ) (f : ℕ → K × K), SumsTo t j d →
      (∀ k < j, f k = (-R.rnd (A j k * A k k), A i k)) →
      |t.eval R a f - (a - ∑ k ∈ Finset.range j, A i k * A k k * A j k)| ≤
        ((1 + R.u) ^ (d + 1) - 1) * (|a| + ∑ k ∈ Finset.range j, |A i k * A k k * A j k|) := by
    intro t a i f ht hf
    have h0 := sumsTo_err R he ht a f
    have e1 : ∑ k ∈ Finset.range j, (f k).1 * (f k).2 = -∑ k ∈ Finset.range j, R.rnd (A j k * A k k) * A i k := by
      rw [← Finset.sum_neg_distrib]
      refine Finset.sum_congr rfl fun k hk => ?_
      rw [hf k (Finset.mem_range.1 hk)]
      simp only; ring
    have e2 : ∑ k ∈ Finset.range j, |(f k).1 * (f k).2| = ∑ k ∈ Finset.range j, |R.rnd (A j k * A k k) * A i k| := by
      refine Finset.sum_congr rfl fun k hk => ?_
      rw [hf k (Finset.mem_range.1 hk)]
      simp only
      rw [neg_mul, abs_neg]
    rw [e1, e2, ← sub_eq_add_neg] at h0
    have := pert_sum (one_le_G R d) (by linarith) (fun k _ => hrel i k) h0
    rwa [← pow_succ] at this
  constructor
  · rw [s2]
    refine (hsum _ _ j _ h1 fun k hk => ?_).trans (mul_le_mul_of_nonneg_right (sub_le_sub_right (G_mono R (by omega)) 1) ?_)
    · rw [hwk k hk, hw j k (by omega) hj]
    · exact add_nonneg (abs_nonneg _) (Finset.sum_nonneg fun _ _ => abs_nonneg _)
  · intro i hij hin hne
    have k1 := hsum (q.column o n j i) (A i j) i (fun k => (-flLdltPivot R (q.pivot o n j) n j (flLdltWork R n j A) k (n - 1),
        flLdltPivot R (q.pivot o n j) n j (flLdltWork R n j A) i k)) (h2 i hij hin) fun k hk => by
      rw [hpk k hk, hpi i k (by omega) hin (by omega)]
    have k2 := near_mul k1 (abs_sub_sum_le _ _ _) (one_le_G R 2) (scale_err R he _ hne).1
    rw [← s3 i hij hin, ← pow_add] at k2
    exact k2

theorem flLdltUnblocked_near (R : Rounding K) (he : R.eta = 0) (q : LdltOrders) {d : ℕ} (o n : ℕ)
    (h1 : ∀ j < n, SumsTo (q.pivot o n j) j d) (h2 : ∀ j i, j < i → i < n → SumsTo (q.column o n j i) j d) (A : ℕ → ℕ → K)
    (hp : ∀ k, k + 1 < n → flLdltUnblocked R q o n A k k ≠ 0) :
    NearLdl ((1 + R.u) ^ (d + 3)) n A (flLdltUnblocked R q o n A) := by
  unfold flLdltUnblocked at hp ⊢
  by_cases hn : n ≤ 1
  · rw [if_pos hn]
    intro i hi c hc
    obtain rfl : i = 0 := by omega
    obtain rfl : c = 0 := by omega
    have := one_le_G R (d + 3)
    simp only [leadLd, Finset.range_zero, Finset.sum_empty, sub_zero, sub_self, abs_zero, add_zero, if_true]
    exact mul_nonneg (by linarith) (abs_nonneg _)
  · rw [if_neg hn] at hp ⊢
    have key := forRange_ind (fun j (B : ℕ → ℕ → K) =>
      (∀ c < j, ∀ i < n, c ≤ i → (c = i ∨ B c c ≠ 0) →
        |leadLd B i c - (A i c - ∑ k ∈ Finset.range c, B i k * B k k * B c k)| ≤
          ((1 + R.u) ^ (d + 3) - 1) * (|A i c| + ∑ k ∈ Finset.range c, |B i k * B k k * B c k|)) ∧
      (∀ i c, j ≤ c → c ≤ i → i < n → B i c = A i c)) 0 n (flLdltStep R q o n) A
      ⟨fun c hc => by omega, fun _ _ _ _ _ => rfl⟩ ?_
    · intro i hi c hc
      refine key.1 c (by omega) i hi hc ?_
      by_cases h : c = i
      · exact .inl h
      · exact .inr (hp c (by omega))
    intro j B hj ⟨g1, g2⟩
    rw [Nat.zero_add]
    obtain ⟨s1, -, -⟩ := flLdltStep_lower R q o n j B hj
    obtain ⟨r1, r2⟩ := flLdltStep_err R he q o n j hj (h1 j hj) (fun i => h2 j i) B
    generalize flLdltStep R q o n j B = B' at *
    have hterm : ∀ i < n, ∀ c ≤ j, c ≤ i → ∀ k ∈ Finset.range c, B' i k * B' k k * B' c k = B i k * B k k * B c k := by
      intro i hi c hc hci k hk
      rw [Finset.mem_range] at hk
      rw [s1 i k (by omega) hi (by omega), s1 k k le_rfl (by omega) (by omega), s1 c k (by omega) (by omega) (by omega)]
    constructor
    · intro c hc i hi hci hne
      have e1 := Finset.sum_congr rfl (hterm i hi c (by omega) hci)
      have e2 : ∑ k ∈ Finset.range c, |B' i k * B' k k * B' c k| = ∑ k ∈ Finset.range c, |B i k * B k k * B c k| :=
        Finset.sum_congr rfl fun k hk => by rw [hterm i hi c (by omega) hci k hk]
      rw [e1, e2]
      by_cases hcj : c = j
      · subst hcj
        rw [← g2 i c le_rfl hci hi]
        by_cases hic : i = c
        · subst hic
          rw [leadLd, if_pos rfl]
          exact r1
        · rw [leadLd, if_neg hic]
          rcases hne with hne | hne
          · exact absurd hne.symm hic
          · exact r2 i (by omega) hi hne
      · have e3 : leadLd B' i c = leadLd B i c := by
          simp only [leadLd]
          rw [s1 c c le_rfl (by omega) hcj, s1 i c hci hi hcj]
        rw [e3]
        rw [s1 c c le_rfl (by omega) hcj] at hne
        exact g1 c (by omega) i hi hci hne
    · intro i c hc hci hi
      rw [s1 i c hci hi (by omega)]
      exact g2 i c (by omega) hci hi

/-! ### triangular solves -/

theorem flFwdUnit_spec (R : Rounding K) (t : ℕ → SumTree ℕ) (n : ℕ) (M : ℕ → ℕ → K) (b : ℕ → K) :
    ∀ i < n, ∃ x : ℕ → K, (∀ k < i, x k = flFwdUnit R t n M b k) ∧
      flFwdUnit R t n M b i = (t i).eval R (b i) fun k => (-M i k, x k) := by
  have := forRange_ind (fun j x => (∀ i < j, ∃ y : ℕ → K, (∀ k < i, y k = x k) ∧ x i = (t i).eval R (b i) fun k => (-M i k, y k)) ∧
    ∀ i, j ≤ i → x i = b i) 0 n (fun i x => Function.update x i ((t i).eval R (x i) fun k => (-M i k, x k))) b
    ⟨fun i hi => by omega, fun _ _ => rfl⟩ ?_
  · exact this.1
  intro j x hj ⟨h1, h2⟩
  rw [Nat.zero_add]
  constructor
  · intro i hi
    by_cases hij : i = j
    · subst hij
      refine ⟨x, fun k hk => ?_, ?_⟩
      · rw [Function.update_of_ne (by omega)]
      · rw [Function.update_self, h2 i le_rfl]
    · obtain ⟨y, hy1, hy2⟩ := h1 i (by omega)
      refine ⟨y, fun k hk => ?_, ?_⟩
      · rw [Function.update_of_ne (by omega)]; exact hy1 k hk
      · rw [Function.update_of_ne hij]; exact hy2
  · intro i hi
    rw [Function.update_of_ne (by omega)]
    exact h2 i (by omega)

theorem flBwdUnit_spec (R : Rounding K) (t : ℕ → SumTree ℕ) (n : ℕ) (M : ℕ → ℕ → K) (b : ℕ → K) :
    ∀ i < n, ∃ x : ℕ → K, (∀ k, i < k → k < n → x k = flBwdUnit R t n M b k) ∧
      flBwdUnit R t n M b i = (t i).eval R (b i) fun k => (-M (i + 1 + k) i, x (i + 1 + k)) := by
  have := forRange_ind (fun s x => (∀ i < n, n - s ≤ i → ∃ y : ℕ → K, (∀ k, i < k → k < n → y k = x k) ∧
    x i = (t i).eval R (b i) fun k => (-M (i + 1 + k) i, y (i + 1 + k))) ∧ ∀ i < n - s, x i = b i) 0 n
    (fun s x => Function.update x (n - 1 - s)
      ((t (n - 1 - s)).eval R (x (n - 1 - s)) fun k => (-M (n - s + k) (n - 1 - s), x (n - s + k)))) b
    ⟨fun i hi => by omega, fun _ _ => rfl⟩ ?_
  · exact fun i hi => this.1 i hi (by omega)
  intro s x hs ⟨h1, h2⟩
  rw [Nat.zero_add]
  constructor
  · intro i hi hsi
    by_cases hij : i = n - 1 - s
    · refine ⟨x, fun k hk hkn => ?_, ?_⟩
      · rw [Function.update_of_ne (by omega)]
      · have e : n - s = i + 1 := by omega
        rw [← hij, Function.update_self, h2 i (by omega), e]
    · obtain ⟨y, hy1, hy2⟩ := h1 i hi (by omega)
      refine ⟨y, fun k hk hkn => ?_, ?_⟩
      · rw [Function.update_of_ne (by omega)]; exact hy1 k hk hkn
      · rw [Function.update_of_ne hij]; exact hy2
  · intro i hi
    rw [Function.update_of_ne (by omega)]
    exact h2 i (by omega)

/-- a row of a rounded substitution -/
theorem subst_err (R : Rounding K) (he : R.eta = 0) {t : SumTree ℕ} {m d : ℕ} (h : SumsTo t m d) (b : K) (l x x' : ℕ → K)
    (hx : ∀ k < m, x' k = x k) :
    |t.eval R b (fun k => (-l k, x' k)) - (b - ∑ k ∈ Finset.range m, l k * x k)| ≤
      ((1 + R.u) ^ d - 1) * (|b| + ∑ k ∈ Finset.range m, |l k * x k|) := by
  have h0 := sumsTo_err R he h b fun k => (-l k, x' k)
  have e1 : ∑ k ∈ Finset.range m, (-l k) * x' k = -∑ k ∈ Finset.range m, l k * x k := by
    rw [← Finset.sum_neg_distrib]
    exact Finset.sum_congr rfl fun k hk => by rw [hx k (Finset.mem_range.1 hk)]; ring
  have e2 : ∑ k ∈ Finset.range m, |(-l k) * x' k| = ∑ k ∈ Finset.range m, |l k * x k| :=
    Finset.sum_congr rfl fun k hk => by rw [hx k (Finset.mem_range.1 hk), neg_mul, abs_neg]
  simp only at h0
  rwa [e1, e2, ← sub_eq_add_neg] at h0

end ProxNLP
