import Verif.Spec.FloatBfgs
import Verif.Spec.Kkt
import Verif.Lemmas.Rounding
import Mathlib.Algebra.Order.BigOperators.Group.Finset
import Mathlib.Algebra.Order.BigOperators.Ring.Finset
import Mathlib.Algebra.BigOperators.Fin
import Mathlib.Algebra.BigOperators.Field

/-! Error analysis of the rounded BFGS update. -/

set_option linter.unusedSectionVars false
namespace ProxNLP

open Spec

variable {K : Type} [Field K] [LinearOrder K] [IsStrictOrderedRing K] {n : ℕ}

/-- `v` is `e` up to `G - 1` times the scale `A` -/
structure Near (G v e A : K) : Prop where
  one_le : 1 ≤ G
  scale : |e| ≤ A
  err : |v - e| ≤ (G - 1) * A

theorem Near.nonneg {G v e A : K} (h : Near G v e A) : 0 ≤ A := (abs_nonneg _).trans h.scale

theorem Near.refl (e : K) : Near 1 e e |e| := ⟨le_rfl, le_rfl, by simp⟩

theorem Near.mono {G G' v e A : K} (hG : G ≤ G') (h : Near G v e A) : Near G' v e A :=
  ⟨h.one_le.trans hG, h.scale, h.err.trans (mul_le_mul_of_nonneg_right (by linarith) h.nonneg)⟩

theorem Near.abs_le {G v e A : K} (h : Near G v e A) : |v| ≤ G * A := by
  have h1 : |v| ≤ |v - e| + |e| := by simpa using abs_add_le (v - e) e
  linarith [h.scale, h.err]

theorem Near.mul {G G' v v' e e' A A' : K} (h : Near G v e A) (h' : Near G' v' e' A') : Near (G * G') (v * v') (e * e') (A * A') := by
  refine ⟨one_le_mul_of_one_le_of_one_le h.one_le h'.one_le, ?_, ?_⟩
  · rw [abs_mul]; exact mul_le_mul h.scale h'.scale (abs_nonneg _) h.nonneg
  · have e1 : v * v' - e * e' = v * (v' - e') + (v - e) * e' := by ring
    have k1 : |v * (v' - e')| ≤ (G * A) * ((G' - 1) * A') := by
      rw [abs_mul]; exact mul_le_mul h.abs_le h'.err (abs_nonneg _) (mul_nonneg (by linarith [h.one_le]) h.nonneg)
    have k2 : |(v - e) * e'| ≤ ((G - 1) * A) * A' := by
      rw [abs_mul]; exact mul_le_mul h.err h'.scale (abs_nonneg _) (mul_nonneg (by linarith [h.one_le]) h.nonneg)
    rw [e1]
    refine (abs_add_le _ _).trans ?_
    have : (G * G' - 1) * (A * A') = (G * A) * ((G' - 1) * A') + ((G - 1) * A) * A' := by ring
    linarith

theorem Near.add {G v v' e e' A A' : K} (h : Near G v e A) (h' : Near G v' e' A') : Near G (v + v') (e + e') (A + A') := by
  refine ⟨h.one_le, (abs_add_le _ _).trans (add_le_add h.scale h'.scale), ?_⟩
  have e1 : v + v' - (e + e') = (v - e) + (v' - e') := by ring
  rw [e1]
  refine (abs_add_le _ _).trans ?_
  have := h.err
  have := h'.err
  linarith

theorem Near.neg {G v e A : K} (h : Near G v e A) : Near G (-v) (-e) A := by
  refine ⟨h.one_le, by rw [abs_neg]; exact h.scale, ?_⟩
  rw [← neg_sub', abs_neg]; exact h.err

theorem Near.sub {G v v' e e' A A' : K} (h : Near G v e A) (h' : Near G v' e' A') : Near G (v - v') (e - e') (A + A') := by
  rw [sub_eq_add_neg, sub_eq_add_neg]; exact h.add h'.neg

theorem Near.div {G v e : K} (h : Near G v e |e|) (c : K) : Near G (v / c) (e / c) |e / c| := by
  refine ⟨h.one_le, le_rfl, ?_⟩
  rw [← sub_div, abs_div, abs_div, ← mul_div_assoc]
  exact div_le_div_of_nonneg_right h.err (abs_nonneg _)

theorem Near.rnd (R : Rounding K) (he : R.eta = 0) {G v e A : K} (h : Near G v e A) : Near (G * (1 + R.u)) (R.rnd v) e A := by
  have h1 := R.err v
  rw [he, add_zero] at h1
  refine ⟨one_le_mul_of_one_le_of_one_le h.one_le (by linarith [R.u_nonneg]), h.scale, ?_⟩
  have h2 : |R.rnd v - e| ≤ |R.rnd v - v| + |v - e| := by simpa using abs_add_le (R.rnd v - v) (v - e)
  have h3 := mul_le_mul_of_nonneg_left h.abs_le R.u_nonneg
  have h4 := h.err
  linarith

theorem filterMap_sum {f : Option (Fin n) → K} (h0 : f none = 0) : ∀ l : List (Option (Fin n)),
    (l.map f).sum = ((l.filterMap id).map fun i => f (some i)).sum
  | [] => rfl
  | none :: l => by simp [h0, filterMap_sum h0 l]
  | some i :: l => by simp [filterMap_sum h0 l]

theorem sumsProducts_sum {t : SumTree (Fin n)} {d : ℕ} (h : SumsProducts t d) {f : Option (Fin n) → K} (h0 : f none = 0) :
    (t.terms.map f).sum = ∑ i, f (some i) := by
  rw [filterMap_sum h0, (h.1.map _).sum_eq, List.map_ofFn, List.sum_ofFn]
  rfl

/-- a rounded sum of products whose factors are themselves rounded -/
theorem Near.sum (R : Rounding K) (he : R.eta = 0) {t : SumTree (Fin n)} {d : ℕ} (ht : SumsProducts t d) {G G' : K} (hG : 1 ≤ G) (hG' : 1 ≤ G')
    {f f' e e' A A' : Fin n → K} (h : ∀ k, Near G (f k) (e k) (A k)) (h' : ∀ k, Near G' (f' k) (e' k) (A' k)) :
    Near (G * G' * (1 + R.u) ^ d) (t.eval R 0 fun k => (f k, f' k)) (∑ k, e k * e' k) (∑ k, A k * A' k) := by
  have hm := fun k => (h k).mul (h' k)
  have hg : 1 ≤ G * G' := one_le_mul_of_one_le_of_one_le hG hG'
  have hd : (1 : K) ≤ (1 + R.u) ^ d := one_le_pow₀ (by linarith [R.u_nonneg])
  refine ⟨one_le_mul_of_one_le_of_one_le hg hd, ?_, ?_⟩
  · exact (Finset.abs_sum_le_sum_abs _ _).trans (Finset.sum_le_sum fun k _ => (hm k).scale)
  · have h0 := sumTree_error R 0 (fun k => (f k, f' k)) t
    have e1 : t.exact 0 (fun k => (f k, f' k)) = ∑ k, f k * f' k := by
      rw [SumTree.exact, sumsProducts_sum ht (by rfl)]; rfl
    have e2 : t.absSum 0 (fun k => (f k, f' k)) = ∑ k, |f k * f' k| := by
      rw [SumTree.absSum, sumsProducts_sum ht (by simp [termVal])]; rfl
    rw [he, e1, e2] at h0
    have s1 : ∑ k, |f k * f' k| ≤ G * G' * ∑ k, A k * A' k := by
      rw [Finset.mul_sum]
      exact Finset.sum_le_sum fun k _ => (hm k).abs_le
    have s2 : |∑ k, f k * f' k - ∑ k, e k * e' k| ≤ (G * G' - 1) * ∑ k, A k * A' k := by
      rw [← Finset.sum_sub_distrib, Finset.mul_sum]
      exact (Finset.abs_sum_le_sum_abs _ _).trans (Finset.sum_le_sum fun k _ => (hm k).err)
    have s3 : ((1 + R.u) ^ t.depth - 1) * ∑ k, |f k * f' k| ≤ ((1 + R.u) ^ d - 1) * (G * G' * ∑ k, A k * A' k) :=
      mul_le_mul (sub_le_sub_right (G_mono R ht.2) 1) s1 (Finset.sum_nonneg fun _ _ => abs_nonneg _) (by linarith)
    have s4 := abs_sub_le (t.eval R 0 fun k => (f k, f' k)) (∑ k, f k * f' k) (∑ k, e k * e' k)
    have : (G * G' * (1 + R.u) ^ d - 1) * ∑ k, A k * A' k =
        ((1 + R.u) ^ d - 1) * (G * G' * ∑ k, A k * A' k) + (G * G' - 1) * ∑ k, A k * A' k := by ring
    linarith

theorem flBfgsMatrix_near (R : Rounding K) (he : R.eta = 0) {q : BfgsOrders n} {d : ℕ} (hq : BfgsOrdersSum q d) (ty : BFGSType)
    (s y : Fin n → K) (c : K) (H : Fin n → Fin n → K) (i j : Fin n) :
    Near ((1 + R.u) ^ (2 * d + 7)) (flBfgsMatrix R q ty s y c H i j) (bfgsExact (secantP ty s y) (secantQ ty s y) c H i j)
      (bfgsAbs (secantP ty s y) (secantQ ty s y) c H i j) := by
  have hu : (1 : K) ≤ 1 + R.u := by linarith [R.u_nonneg]
  have hxx : Near (1 * (1 + R.u)) (flBfgsXX R ty s y i j) (secantP ty s y i * secantP ty s y j) |secantP ty s y i * secantP ty s y j| := by
    cases ty <;> exact (Near.refl _).rnd R he
  have hV : ∀ i k, Near ((1 + R.u) ^ 3) (flBfgsV R ty s y c i k) (bfgsFactor (secantP ty s y) (secantQ ty s y) c i k)
      ((if i = k then 1 else 0) + |secantP ty s y i * secantQ ty s y k / c|) := by
    intro i k
    have h1 : Near (1 * (1 + R.u)) (flBfgsXY R ty s y i k) (secantP ty s y i * secantQ ty s y k) |secantP ty s y i * secantQ ty s y k| := by
      cases ty <;> exact (Near.refl _).rnd R he
    have h2 := (h1.div c).rnd R he
    have h3 : Near (1 * (1 + R.u) * (1 + R.u)) (if i = k then (1 : K) else 0) (if i = k then 1 else 0) (if i = k then 1 else 0) := by
      refine Near.mono (G := 1) (by nlinarith) ?_
      split_ifs
      · simpa using Near.refl (1 : K)
      · simpa using Near.refl (0 : K)
    exact ((h3.sub h2).rnd R he).mono (le_of_eq (by ring))
  have h3 : (1 : K) ≤ (1 + R.u) ^ 3 := one_le_pow₀ hu
  have hM : ∀ l, Near ((1 + R.u) ^ (d + 3)) (flBfgsVM R q (flBfgsV R ty s y c) H i l)
      (∑ k, bfgsFactor (secantP ty s y) (secantQ ty s y) c i k * H k l)
      (∑ k, ((if i = k then 1 else 0) + |secantP ty s y i * secantQ ty s y k / c|) * |H k l|) := fun l =>
    (Near.sum R he (hq.left i l) h3 le_rfl (fun k => hV i k) fun k => Near.refl (H k l)).mono (le_of_eq (by ring))
  have hMV := Near.sum R he (hq.right i j) (one_le_pow₀ hu) h3 hM fun l => hV j l
  have h4 : Near ((1 + R.u) ^ (d + 3) * (1 + R.u) ^ 3 * (1 + R.u) ^ d) (R.rnd (flBfgsXX R ty s y i j / c))
      (secantP ty s y i * secantP ty s y j / c) |secantP ty s y i * secantP ty s y j / c| := by
    refine ((hxx.div c).rnd R he).mono ?_
    have : (1 + R.u) ^ (d + 3) * (1 + R.u) ^ 3 * (1 + R.u) ^ d = (1 + R.u) ^ (2 * d + 6) := by ring
    rw [this, one_mul, ← pow_two]
    exact pow_le_pow_right₀ hu (by omega)
  exact ((hMV.add h4).rnd R he).mono (le_of_eq (by ring))

theorem bfgsExact_symm (p q : Fin n → K) (c : K) (H : Fin n → Fin n → K) (hH : ∀ i j, H i j = H j i) (i j : Fin n) :
    bfgsExact p q c H i j = bfgsExact p q c H j i := by
  unfold bfgsExact
  have : ∀ i j, ∑ l, (∑ k, bfgsFactor p q c i k * H k l) * bfgsFactor p q c j l =
      ∑ l, ∑ k, bfgsFactor p q c i k * bfgsFactor p q c j l * H k l := fun i j =>
    Finset.sum_congr rfl fun l _ => by rw [Finset.sum_mul]; exact Finset.sum_congr rfl fun k _ => by ring
  rw [this, this, Finset.sum_comm, mul_comm (p i)]
  congr 1
  exact Finset.sum_congr rfl fun l _ => Finset.sum_congr rfl fun k _ => by rw [hH]; ring

theorem bfgsAbs_symm (p q : Fin n → K) (c : K) (H : Fin n → Fin n → K) (hH : ∀ i j, H i j = H j i) (i j : Fin n) :
    bfgsAbs p q c H i j = bfgsAbs p q c H j i := by
  unfold bfgsAbs
  have : ∀ i j, ∑ l, (∑ k, ((if i = k then 1 else 0) + |p i * q k / c|) * |H k l|) * ((if j = l then 1 else 0) + |p j * q l / c|) =
      ∑ l, ∑ k, ((if i = k then 1 else 0) + |p i * q k / c|) * ((if j = l then 1 else 0) + |p j * q l / c|) * |H k l| := fun i j =>
    Finset.sum_congr rfl fun l _ => by rw [Finset.sum_mul]; exact Finset.sum_congr rfl fun k _ => by ring
  rw [this, this, Finset.sum_comm, mul_comm (p i)]
  congr 1
  exact Finset.sum_congr rfl fun l _ => Finset.sum_congr rfl fun k _ => by rw [hH]; ring

/-- The formula keeps positive definiteness for every `σ > 0`, even if it is not the exact curvature. -/
theorem bfgsExact_posDef (p q : Fin n → K) {c : K} (hc : 0 < c) (H : Fin n → Fin n → K) (hH : PosDef (Matrix.of H)) (v : Fin n → K)
    (hv : v ≠ 0) : 0 < ∑ i, ∑ j, v i * bfgsExact p q c H i j * v j := by
  -- `w = Vᵀ v`
  let w : Fin n → K := fun k => v k - (∑ i, p i * v i) / c * q k
  have hw : ∀ k, ∑ i, v i * bfgsFactor p q c i k = w k := by
    intro k
    simp only [bfgsFactor, mul_sub, Finset.sum_sub_distrib, mul_ite, mul_one, mul_zero, Finset.sum_ite_eq', Finset.mem_univ, if_true, w]
    congr 1
    rw [Finset.sum_div, Finset.sum_mul]
    exact Finset.sum_congr rfl fun i _ => by ring
  have key : ∑ i, ∑ j, v i * bfgsExact p q c H i j * v j = (∑ k, ∑ l, w k * H k l * w l) + (∑ i, p i * v i) * (∑ i, p i * v i) / c := by
    have e1 : ∀ i j, v i * bfgsExact p q c H i j * v j =
        (∑ k, ∑ l, (v i * bfgsFactor p q c i k) * H k l * (v j * bfgsFactor p q c j l)) + (p i * v i) * (p j * v j) / c := by
      intro i j
      rw [bfgsExact, mul_add, add_mul, Finset.mul_sum, Finset.sum_mul, Finset.sum_comm (γ := Fin n)]
      congr 1
      · refine Finset.sum_congr rfl fun l _ => ?_
        rw [Finset.sum_mul, Finset.mul_sum, Finset.sum_mul]
        exact Finset.sum_congr rfl fun k _ => by ring
      · ring
    simp only [e1, Finset.sum_add_distrib]
    congr 1
    · calc ∑ i, ∑ j, ∑ k, ∑ l, v i * bfgsFactor p q c i k * H k l * (v j * bfgsFactor p q c j l)
          = ∑ i, ∑ k, ∑ l, ∑ j, v i * bfgsFactor p q c i k * H k l * (v j * bfgsFactor p q c j l) := by
            refine Finset.sum_congr rfl fun i _ => ?_
            rw [Finset.sum_comm]
            exact Finset.sum_congr rfl fun k _ => Finset.sum_comm
        _ = ∑ i, ∑ k, ∑ l, v i * bfgsFactor p q c i k * H k l * w l := by
            refine Finset.sum_congr rfl fun i _ => Finset.sum_congr rfl fun k _ => Finset.sum_congr rfl fun l _ => ?_
            rw [← Finset.mul_sum, hw]
        _ = ∑ k, ∑ l, w k * H k l * w l := by
            rw [Finset.sum_comm]
            refine Finset.sum_congr rfl fun k _ => ?_
            rw [Finset.sum_comm]
            refine Finset.sum_congr rfl fun l _ => ?_
            rw [← Finset.sum_mul, ← Finset.sum_mul, hw]
    · rw [Finset.sum_mul, Finset.sum_div]
      refine Finset.sum_congr rfl fun i _ => ?_
      rw [Finset.mul_sum, Finset.sum_div]
  rw [key]
  have hq : ∑ k, ∑ l, w k * H k l * w l = quad (Matrix.of H) w := by
    simp only [quad, Matrix.of_apply]
    refine Finset.sum_congr rfl fun k _ => ?_
    rw [Finset.mul_sum]
    exact Finset.sum_congr rfl fun l _ => by ring
  rw [hq]
  by_cases h0 : w = 0
  · have hne : ∑ i, p i * v i ≠ 0 := by
      intro h1
      apply hv
      funext k
      have := congrFun h0 k
      simpa [w, h1] using this
    have hz : quad (Matrix.of H) w = 0 := by simp [quad, h0]
    rw [hz, zero_add]
    exact div_pos (mul_self_pos.2 hne) hc
  · exact add_pos_of_pos_of_nonneg (hH w h0) (div_nonneg (mul_self_nonneg _) hc.le)

/-- the secant equation of the formula with a `σ` that is not the exact curvature -/
theorem bfgsExact_secant (p q : Fin n → K) (c : K) (H : Fin n → Fin n → K) (i : Fin n) :
    ∑ j, bfgsExact p q c H i j * q j - p i =
      (1 - (∑ k, p k * q k) / c) * (∑ l, (∑ k, bfgsFactor p q c i k * H k l) * q l - p i) := by
  have e1 : ∀ l, ∑ j, bfgsFactor p q c j l * q j = (1 - (∑ k, p k * q k) / c) * q l := by
    intro l
    simp only [bfgsFactor, sub_mul, Finset.sum_sub_distrib, ite_mul, one_mul, zero_mul, Finset.sum_ite_eq', Finset.mem_univ, if_true]
    congr 1
    rw [Finset.sum_div, Finset.sum_mul]
    exact Finset.sum_congr rfl fun k _ => by ring
  have e2 : ∑ j, bfgsExact p q c H i j * q j =
      (∑ l, (∑ k, bfgsFactor p q c i k * H k l) * ∑ j, bfgsFactor p q c j l * q j) + p i * ((∑ k, p k * q k) / c) := by
    simp only [bfgsExact, add_mul, Finset.sum_add_distrib]
    congr 1
    · simp only [Finset.sum_mul, Finset.mul_sum]
      rw [Finset.sum_comm]
      exact Finset.sum_congr rfl fun l _ => Finset.sum_congr rfl fun j _ => Finset.sum_congr rfl fun k _ => by ring
    · rw [Finset.sum_div, Finset.mul_sum]
      exact Finset.sum_congr rfl fun k _ => by ring
  rw [e2]
  simp only [e1]
  have e3 : ∑ l, (∑ k, bfgsFactor p q c i k * H k l) * ((1 - (∑ k, p k * q k) / c) * q l) =
      (1 - (∑ k, p k * q k) / c) * ∑ l, (∑ k, bfgsFactor p q c i k * H k l) * q l := by
    rw [Finset.mul_sum]
    exact Finset.sum_congr rfl fun l _ => by ring
  rw [e3]
  ring

end ProxNLP
