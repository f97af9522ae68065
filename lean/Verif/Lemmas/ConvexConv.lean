import Verif.Lemmas.DescentLoop
import Verif.Spec.ConvexConv
import Verif.Props.Certificate

/-!
The outer loop on strongly convex problems with affine constraints in equality, orthant and box sets.
-/

set_option linter.unusedSectionVars false
namespace ProxNLP

open Spec

variable {K : Type} {n m : ℕ} [Field K] [LinearOrder K] [IsStrictOrderedRing K]

theorem col_sum_le_frob (A : Fin m → Fin n → K) (l : Fin m → K) : ∑ j, (∑ i, A i j * l i) ^ 2 ≤ frob A * ∑ i, l i ^ 2 := by
  have h : frob A = ∑ j, ∑ i, A i j ^ 2 := by unfold frob; exact Finset.sum_comm
  rw [h, Finset.sum_mul]
  exact Finset.sum_le_sum fun j _ => Finset.sum_mul_sq_le_sq_mul_sq _ _ _

theorem indAt_of_set (s : LeafSet K) (i : ℕ) (hv : ValidAt s i) (hl : s ≠ .l1) : IndAt s i := by
  cases s with
  | l1 => exact absurd rfl hl
  | box lo hi => exact hv
  | _ => trivial

/-- moving the point further along its normal part does not change the projection -/
theorem projAt_normal_scale (s : LeafSet K) (mu : K) (i : ℕ) (hv : ValidAt s i) (hl : s ≠ .l1) (z t : K) (ht : 0 ≤ t) :
    s.projAt mu i (s.projAt mu i z + t * s.normalAt mu i z) = s.projAt mu i z := by
  cases s with
  | l1 => exact absurd rfl hl
  | equality => rfl
  | negOrthant =>
    simp only [LeafSet.projAt, LeafSet.normalAt]
    rcases le_total z 0 with h | h
    · simp [h]
    · simp only [min_eq_right h, max_eq_left h, zero_add]
      exact min_eq_right (by positivity)
  | box lo hi =>
    have hv' : lo i ≤ hi i := hv
    simp only [LeafSet.projAt, LeafSet.normalAt]
    rcases le_total z (lo i) with h | h
    · rcases le_total z (hi i) with h2 | h2
      · simp only [max_eq_right h, min_eq_left h2, min_eq_left hv']
        have : lo i + t * (z - lo i) ≤ lo i := by nlinarith
        simp [this, le_trans this hv']
      · have e1 : lo i = hi i := le_antisymm hv' (le_trans h2 h)
        have e2 : z = lo i := le_antisymm h (by rw [e1]; exact h2)
        simp [e2, e1]
    · rcases le_total z (hi i) with h2 | h2
      · simp [h, h2]
      · simp only [min_eq_right h2, max_eq_left hv']
        have : hi i ≤ hi i + t * (z - hi i) := by nlinarith
        simp [this, hv']

/-- one row: monotonicity of the normal cone, in terms of the multipliers -/
theorem pd_row_mono (s : LeafSet K) (k : ℕ) (hv : ValidAt s k) (hl : s ≠ .l1) (mu : K) (hmu : 0 < mu) (c cs prev lam ls e z : K)
    (hz : z = c + mu * prev - 1 / 2 * mu * lam) (he : s.normalAt mu k z = mu / 2 * lam + mu * e)
    (hcs : rowMem s k cs) (hls : ∀ y, rowMem s k y → ls * (y - cs) ≤ 0) :
    mu * ((lam - ls) * (lam - prev)) + mu * ((lam - ls) * e) - 2 * (e * (c - cs)) + 2 * mu * (e * (lam - prev)) + 2 * mu * e ^ 2 ≤
      (lam - ls) * (c - cs) := by
  have e1 := projAt_add_normalAt s mu k z
  have hP : s.projAt mu k z = c + mu * prev - mu * lam - mu * e := by rw [he, hz] at *; linarith
  have h1 := normalAt_mul_le s mu k z cs (indAt_of_set s k hv hl) ((rowMem_iff s k cs).1 hcs)
  have h2 := hls _ ((rowMem_iff s k _).2 (projAt_mem s mu k z hv))
  rw [hP] at h1 h2
  rw [he] at h1
  have h3 : (lam + 2 * e) * (cs - (c + mu * prev - mu * lam - mu * e)) ≤ 0 := by
    have : (mu / 2 * lam + mu * e) * (cs - (c + mu * prev - mu * lam - mu * e)) =
        (mu / 2) * ((lam + 2 * e) * (cs - (c + mu * prev - mu * lam - mu * e))) := by ring
    rw [this] at h1
    exact nonpos_of_mul_nonpos_right h1 (by positivity)
  nlinarith

/-- one accepted multiplier update: the distance of the multipliers to the solution grows by a controlled error only -/
theorem pd_fejer (A : Fin m → Fin n → K) (b : Fin m → K) (leaf : Fin m → LeafSet K × ℕ) (hv : ∀ i, ValidAt (leaf i).1 (leaf i).2)
    (hl : OnlySets leaf) (grad : (Fin n → K) → Fin n → K) (h : K) (hm : StronglyMonotone grad h) (xs : Fin n → K) (ls : Fin m → K)
    (hk : KktPoint grad A b leaf xs ls) (mu : K) (hmu : 0 < mu) (prev lam e : Fin m → K) (x : Fin n → K)
    (he : ∀ i, (leaf i).1.normalAt mu (leaf i).2 (∑ j, A i j * x j - b i + mu * prev i - 1 / 2 * mu * lam i) = mu / 2 * lam i + mu * e i) :
    ∑ i, (lam i - ls i) ^ 2 ≤ ∑ i, (prev i - ls i) ^ 2 +
      (∑ j, (grad x j + ∑ i, A i j * lam i) ^ 2 + 4 * frob A * ∑ i, e i ^ 2) / (h * mu) - 2 * ∑ i, (lam i - ls i) * e i := by
  set r : Fin n → K := fun j => grad x j + ∑ i, A i j * lam i with hr
  set a : Fin n → K := fun j => ∑ i, A i j * e i with ha
  set d : Fin n → K := fun j => x j - xs j with hd
  have hdc : ∀ i, affine A b x i - affine A b xs i = ∑ j, A i j * d j := by
    intro i
    simp only [affine, hd, mul_sub, Finset.sum_sub_distrib]
    ring
  have htr : ∀ w : Fin m → K, ∑ i, w i * (affine A b x i - affine A b xs i) = ∑ j, (∑ i, A i j * w i) * d j := by
    intro w
    have : ∀ i, w i * (affine A b x i - affine A b xs i) = ∑ j, A i j * w i * d j := by
      intro i
      rw [hdc, Finset.mul_sum]
      exact Finset.sum_congr rfl fun j _ => by ring
    simp only [this]
    rw [Finset.sum_comm]
    exact Finset.sum_congr rfl fun j _ => by rw [Finset.sum_mul]
  have hrow := Finset.sum_le_sum fun i (_ : i ∈ Finset.univ) => pd_row_mono (leaf i).1 (leaf i).2 (hv i) (hl i) mu hmu (affine A b x i)
    (affine A b xs i) (prev i) (lam i) (ls i) (e i) _ rfl (he i) (hk.feasible i) (hk.normal i)
  simp only [Finset.sum_add_distrib, Finset.sum_sub_distrib, ← Finset.mul_sum] at hrow
  rw [htr e, htr (fun i => lam i - ls i)] at hrow
  have hg : ∑ j, (grad x j - grad xs j) * d j = ∑ j, r j * d j - ∑ j, (∑ i, A i j * (lam i - ls i)) * d j := by
    rw [← Finset.sum_sub_distrib]
    refine Finset.sum_congr rfl fun j _ => ?_
    have hs := hk.stationary j
    have : ∑ i, A i j * (lam i - ls i) = ∑ i, A i j * lam i - ∑ i, A i j * ls i := by
      rw [← Finset.sum_sub_distrib]; exact Finset.sum_congr rfl fun i _ => by ring
    rw [this, hr]
    have e1 : grad xs j = -∑ i, A i j * ls i := by linarith
    rw [e1]; ring
  have hmono : h * ∑ j, d j ^ 2 ≤ ∑ j, (grad x j - grad xs j) * d j := hm.bound x xs
  have hpos := hm.pos
  have hyoung : ∑ j, r j * d j + 2 * ∑ j, a j * d j - h * ∑ j, d j ^ 2 ≤ (∑ j, r j ^ 2 + 4 * ∑ j, a j ^ 2) / (2 * h) := by
    rw [Finset.mul_sum, Finset.mul_sum, Finset.mul_sum, ← Finset.sum_add_distrib, ← Finset.sum_add_distrib, ← Finset.sum_sub_distrib,
      Finset.sum_div]
    refine Finset.sum_le_sum fun j _ => ?_
    rw [le_div_iff₀ (by positivity)]
    nlinarith [sq_nonneg (r j - 2 * a j), sq_nonneg (r j + 2 * a j - 2 * h * d j)]
  have hfrob : ∑ j, a j ^ 2 ≤ frob A * ∑ i, e i ^ 2 := col_sum_le_frob A e
  have hid : 2 * ∑ i, (lam i - ls i) * (lam i - prev i) = ∑ i, (lam i - ls i) ^ 2 + ∑ i, (lam i - prev i) ^ 2 - ∑ i, (prev i - ls i) ^ 2 := by
    rw [Finset.mul_sum, ← Finset.sum_add_distrib, ← Finset.sum_sub_distrib]
    exact Finset.sum_congr rfl fun i _ => by ring
  have hsq : 0 ≤ ∑ i, (lam i - prev i) ^ 2 + 4 * ∑ i, e i * (lam i - prev i) + 4 * ∑ i, e i ^ 2 := by
    have : ∑ i, (lam i - prev i) ^ 2 + 4 * ∑ i, e i * (lam i - prev i) + 4 * ∑ i, e i ^ 2 = ∑ i, (lam i - prev i + 2 * e i) ^ 2 := by
      rw [Finset.mul_sum, Finset.mul_sum, ← Finset.sum_add_distrib, ← Finset.sum_add_distrib]
      exact Finset.sum_congr rfl fun i _ => by ring
    rw [this]
    exact Finset.sum_nonneg fun _ _ => sq_nonneg _
  set E := ∑ i, (lam i - ls i) ^ 2
  set E0 := ∑ i, (prev i - ls i) ^ 2
  set Q := ∑ i, (lam i - prev i) ^ 2
  set V := ∑ i, (lam i - ls i) * e i
  set W := ∑ i, e i * (lam i - prev i)
  set X := ∑ i, (lam i - ls i) * (lam i - prev i)
  set E2 := ∑ i, e i ^ 2
  set Rr := ∑ j, r j ^ 2
  have key : mu / 2 * (E - E0) + mu * V ≤ (Rr + 4 * (frob A * E2)) / (2 * h) := by
    have h1 : (Rr + 4 * ∑ j, a j ^ 2) / (2 * h) ≤ (Rr + 4 * (frob A * E2)) / (2 * h) :=
      div_le_div_of_nonneg_right (by linarith) (by positivity)
    have h2 : mu * (2 * X) = mu * (E + Q - E0) := by rw [hid]
    have h3 : 0 ≤ mu * (Q + 4 * W + 4 * E2) := mul_nonneg hmu.le hsq
    nlinarith
  have h4 : (Rr + 4 * frob A * E2) / (h * mu) = 2 / mu * ((Rr + 4 * (frob A * E2)) / (2 * h)) := by field_simp
  rw [h4]
  have h5 := mul_le_mul_of_nonneg_left key (by positivity : 0 ≤ 2 / mu)
  have h6 : 2 / mu * (mu / 2 * (E - E0) + mu * V) = E - E0 + 2 * V := by field_simp
  linarith

/-- growth of the radius in one step -/
theorem radius_step (E R bb v s beta : K) (hE : 0 ≤ E) (hR : 0 ≤ R) (hs : 0 ≤ s) (hb : 0 ≤ beta) (h1 : E ≤ R ^ 2 + bb - 2 * v)
    (h2 : v ^ 2 ≤ s ^ 2 * E) (h3 : bb ≤ beta ^ 2) : E ≤ (R + beta + 2 * s) ^ 2 := by
  by_contra hc
  push Not at hc
  set T := R + beta + 2 * s with hT
  have hT0 : 0 ≤ T := by positivity
  -- from the first inequality `v` is negative and large
  have hv : 2 * v ≤ R ^ 2 + beta ^ 2 - E := by linarith
  have hneg : R ^ 2 + beta ^ 2 - E ≤ 0 := by nlinarith [mul_nonneg hR hb, mul_nonneg hR hs, mul_nonneg hb hs]
  have hsq : (E - R ^ 2 - beta ^ 2) ^ 2 ≤ 4 * (s ^ 2 * E) := by nlinarith
  -- `E - R² - β² ≥ E - (R+β)²`, and `(E - (R+β)²)² > 4 s² E` beyond the radius
  set G := R + beta with hG
  have hG0 : 0 ≤ G := by positivity
  have hTG : T = G + 2 * s := by rw [hT]
  have hge : 0 ≤ E - G ^ 2 := by nlinarith [mul_nonneg hG0 hs]
  have hle : E - G ^ 2 ≤ E - R ^ 2 - beta ^ 2 := by rw [hG]; nlinarith [mul_nonneg hR hb]
  have hsq2 : (E - G ^ 2) ^ 2 ≤ 4 * (s ^ 2 * E) := le_trans (pow_le_pow_left₀ hge hle 2) hsq
  have hGs := mul_nonneg hG0 hs
  have f1 : 0 < E - T ^ 2 := sub_pos.2 hc
  have f2 : 0 < E + T ^ 2 - 2 * G ^ 2 - 4 * s ^ 2 := by
    have : E + T ^ 2 - 2 * G ^ 2 - 4 * s ^ 2 = (E - T ^ 2) + (8 * (G * s) + 4 * s ^ 2) := by rw [hTG]; ring
    rw [this]
    have := sq_nonneg s
    linarith
  have f3 : (E - G ^ 2) ^ 2 - 4 * (s ^ 2 * E) = (E - T ^ 2) * (E + T ^ 2 - 2 * G ^ 2 - 4 * s ^ 2) +
      2 * s * G * (T ^ 2 - G ^ 2 + 2 * s * T) := by rw [hTG]; ring
  have f4 : 0 ≤ 2 * s * G * (T ^ 2 - G ^ 2 + 2 * s * T) := by
    have : T ^ 2 - G ^ 2 + 2 * s * T = 6 * (G * s) + 8 * s ^ 2 := by rw [hTG]; ring
    rw [this]; positivity
  have := mul_pos f1 f2
  linarith

theorem abs_le_of_sum_sq (v : Fin m → K) (R : K) (hR : 0 ≤ R) (h : ∑ i, v i ^ 2 ≤ R ^ 2) (i : Fin m) : |v i| ≤ R := by
  have h1 : v i ^ 2 ≤ ∑ i, v i ^ 2 := Finset.single_le_sum (f := fun i => v i ^ 2) (fun _ _ => sq_nonneg _) (Finset.mem_univ i)
  exact abs_le_of_sq_le_sq (le_trans h1 h) hR

theorem sum_sq_le_card (v : Fin m → K) (t : K) (h : ∀ i, |v i| ≤ t) : ∑ i, v i ^ 2 ≤ m * t ^ 2 := by
  have : ∀ i ∈ Finset.univ, v i ^ 2 ≤ t ^ 2 := fun i _ => by
    rw [← sq_abs (v i)]
    exact pow_le_pow_left₀ (abs_nonneg _) (h i) 2
  have := Finset.sum_le_card_nsmul _ _ _ this
  simpa [nsmul_eq_mul] using this

/-- primal residual of a row at the end of an inner loop -/
theorem pd_row_prim (s : LeafSet K) (k : ℕ) (hv : ValidAt s k) (hl : s ≠ .l1) (mu : K) (hmu : 0 < mu) (c prev lam e : K)
    (he : s.normalAt mu k (c + mu * prev - 1 / 2 * mu * lam) = mu / 2 * lam + mu * e) :
    |c - s.projAt mu k (c + mu * lam)| ≤ 2 * mu * (|lam - prev| + |e|) := by
  set z := c + mu * prev - 1 / 2 * mu * lam with hz
  have e1 := projAt_add_normalAt s mu k z
  have hP : s.projAt mu k z = c + mu * prev - mu * lam - mu * e := by rw [he, hz] at *; linarith
  have h1 := projAt_normal_scale s mu k hv hl z 2 (by norm_num)
  have h2 := projAt_nonexp s mu hmu.le k (c + mu * lam) (s.projAt mu k z + 2 * s.normalAt mu k z) hv
  rw [h1, he, hP] at h2
  have e3 : c + mu * lam - (c + mu * prev - mu * lam - mu * e + 2 * (mu / 2 * lam + mu * e)) = mu * (lam - prev - e) := by ring
  rw [e3, abs_mul, abs_of_pos hmu] at h2
  have e4 : c - s.projAt mu k (c + mu * lam) =
      mu * (lam - prev + e) - (s.projAt mu k (c + mu * lam) - (c + mu * prev - mu * lam - mu * e)) := by ring
  rw [e4]
  refine le_trans (abs_sub _ _) ?_
  rw [abs_mul, abs_of_pos hmu]
  have h5 : |lam - prev + e| ≤ |lam - prev| + |e| := abs_add_le _ _
  have h6 : |lam - prev - e| ≤ |lam - prev| + |e| := abs_sub _ _
  nlinarith

/-- what the end of an inner loop by its tolerance gives -/
theorem pd_end (S : Settings K) (A : Fin m → Fin n → K) (b : Fin m → K) (leaf : Fin m → LeafSet K × ℕ)
    (hv : ∀ i, ValidAt (leaf i).1 (leaf i).2) (hl : OnlySets leaf) (grad : (Fin n → K) → Fin n → K) (h : K)
    (hm : StronglyMonotone grad h) (xs : Fin n → K) (ls : Fin m → K) (hk : KktPoint grad A b leaf xs ls) (theta beta R0 Rm : K)
    (levels rounds : ℕ) (hS : ConvexConvergence S A h theta beta R0 Rm levels rounds) (hlow : 0 < S.muLower)
    (mu tol : K) (h1 : S.muLower ≤ mu) (h2 : mu ≤ S.muInit) (htol : tol ≤ theta * mu) (prev lam : Fin m → K) (x : Fin n → K)
    (hcrit : cvCrit (grad x) A b leaf mu prev x lam ≤ tol) (R : K) (hR : 0 ≤ R) (hprev : ∑ i, (prev i - ls i) ^ 2 ≤ R ^ 2) :
    ∑ i, (lam i - ls i) ^ 2 ≤ (R + beta + 2 * (m * theta)) ^ 2 ∧
      ∀ i, |affine A b x i - (leaf i).1.projAt mu (leaf i).2 (affine A b x i + mu * lam i)| ≤
        2 * mu * (2 * (R + beta + 2 * (m * theta)) + theta) := by
  have hmu : 0 < mu := lt_of_lt_of_le hlow h1
  have hth := hS.theta0
  have hbe := hS.beta0
  have hF := frob_nonneg A
  set z : Fin m → K := fun i => ∑ j, A i j * x j - b i + mu * prev i - 1 / 2 * mu * lam i with hz
  set e : Fin m → K := fun i => ((leaf i).1.normalAt mu (leaf i).2 (z i) - mu / 2 * lam i) / mu with he
  have hN : ∀ i, (leaf i).1.normalAt mu (leaf i).2 (z i) = mu / 2 * lam i + mu * e i := by
    intro i
    simp only [he]
    field_simp
    ring
  obtain ⟨hc1, hc2⟩ := max_le_iff.1 hcrit
  have hr : ∀ j, |grad x j + ∑ l, A l j * lam l| ≤ theta * mu := fun j => le_trans (((inftyNorm_le_iff _ _).1 hc1).2 j) htol
  have hebound : ∀ i, |e i| ≤ theta := by
    intro i
    have := le_trans (((inftyNorm_le_iff _ _).1 hc2).2 i) htol
    have e1 : 1 / 2 * mu * ((leaf i).1.normalAt mu (leaf i).2 (∑ j, A i j * x j - b i + mu * prev i - 1 / 2 * mu * lam i) *
        (1 / mu / (1 / 2)) - lam i) = mu * e i := by
      have := hN i
      simp only [hz] at this
      rw [this]
      field_simp
      ring
    rw [e1, abs_mul, abs_of_pos hmu, mul_comm] at this
    exact le_of_mul_le_mul_right this hmu
  have hfej := pd_fejer A b leaf hv hl grad h hm xs ls hk mu hmu prev lam e x hN
  have hrs : ∑ j, (grad x j + ∑ i, A i j * lam i) ^ 2 ≤ n * (theta * mu) ^ 2 := sum_sq_le_card _ _ hr
  have hes : ∑ i, e i ^ 2 ≤ m * theta ^ 2 := sum_sq_le_card _ _ hebound
  have hpos := hm.pos
  have hbb : (∑ j, (grad x j + ∑ i, A i j * lam i) ^ 2 + 4 * frob A * ∑ i, e i ^ 2) / (h * mu) ≤ beta ^ 2 := by
    refine le_trans ?_ hS.growth
    have s1 : (∑ j, (grad x j + ∑ i, A i j * lam i) ^ 2 + 4 * frob A * ∑ i, e i ^ 2) / (h * mu) ≤
        (n * (theta * mu) ^ 2 + 4 * frob A * (m * theta ^ 2)) / (h * mu) :=
      div_le_div_of_nonneg_right (add_le_add hrs (mul_le_mul_of_nonneg_left hes (by positivity))) (by positivity)
    have s2 : (n * (theta * mu) ^ 2 + 4 * frob A * (m * theta ^ 2)) / (h * mu) = theta ^ 2 * (n * mu + 4 * frob A * m / mu) / h := by
      field_simp
    rw [s2] at s1
    refine le_trans s1 (div_le_div_of_nonneg_right (mul_le_mul_of_nonneg_left (add_le_add ?_ ?_) (sq_nonneg _)) hpos.le)
    · exact mul_le_mul_of_nonneg_left h2 (Nat.cast_nonneg _)
    · exact div_le_div_of_nonneg_left (by positivity) hlow h1
  have hvv : (∑ i, (lam i - ls i) * e i) ^ 2 ≤ (m * theta) ^ 2 * ∑ i, (lam i - ls i) ^ 2 := by
    refine le_trans (Finset.sum_mul_sq_le_sq_mul_sq _ _ _) ?_
    rw [mul_comm]
    refine mul_le_mul_of_nonneg_right (le_trans hes ?_) (Finset.sum_nonneg fun _ _ => sq_nonneg _)
    have : (m : K) ≤ (m : K) ^ 2 := by
      have : m ≤ m ^ 2 := Nat.le_self_pow (by norm_num) m
      exact_mod_cast this
    rw [mul_pow]
    exact mul_le_mul_of_nonneg_right this (sq_nonneg _)
  have hmt : 0 ≤ (m : K) * theta := by positivity
  have hE := radius_step _ R _ _ (m * theta) beta (Finset.sum_nonneg fun _ _ => sq_nonneg _) hR hmt hbe
    (le_trans hfej (sub_le_sub_right (add_le_add_left hprev _) _)) hvv hbb
  refine ⟨hE, fun i => ?_⟩
  have hR' : 0 ≤ R + beta + 2 * (m * theta) := by positivity
  have a1 := abs_le_of_sum_sq (fun i => lam i - ls i) _ hR' hE i
  have a2 := abs_le_of_sum_sq (fun i => prev i - ls i) _ hR hprev i
  have a3 : |lam i - prev i| ≤ |lam i - ls i| + |prev i - ls i| := by
    have : lam i - prev i = (lam i - ls i) - (prev i - ls i) := by ring
    rw [this]; exact abs_sub _ _
  have hp := pd_row_prim (leaf i).1 (leaf i).2 (hv i) (hl i) mu hmu (affine A b x i) (prev i) (lam i) (e i) (hN i)
  refine le_trans hp (mul_le_mul_of_nonneg_left ?_ (by positivity))
  have := hebound i
  linarith

theorem cv_eval_res (C : StepCfg (Fin n → K) K n m) (f : (Fin n → K) → K) (A : Fin m → Fin n → K) (b : Fin m → K)
    (leaf : Fin m → LeafSet K × ℕ) (k : ConvexConst K) (hC : IsConvex C f A b leaf k) (S : Settings K) (hb : S.pdalBeta = 1 / 2)
    (hk : S.kkt = .primalDual) (mu : K) (t x : Fin n → K) (lam prev : Fin m → K) (ev : EvalOut K n m)
    (hev : evalAt (concreteCtx C) S mu mu 0 t x lam prev = some ev) :
    ev.innerCrit = cvCrit (C.grad x) A b leaf mu prev x lam ∧ ev.dual ≤ ev.innerCrit ∧
      ev.prim = inftyNorm (fun i => affine A b x i - (leaf i).1.projAt mu (leaf i).2 (affine A b x i + mu * lam i)) := by
  obtain ⟨ev', h1, -, -, -, -, h5⟩ := cv_eval C f A b leaf k hC S hb hk mu t x lam prev
  rw [hev] at h1
  cases h1
  have hs : (concreteCtx C).sets = StackedSet.ofLeaves leaf := hC.sets
  have hpd : ev.dual = inftyNorm (fun j => C.grad x j + ∑ l, A l j * lam l) ∧
      ev.prim = inftyNorm (fun i => affine A b x i - (leaf i).1.projAt mu (leaf i).2 (affine A b x i + mu * lam i)) := by
    unfold evalAt at hev
    rw [show (concreteCtx C).eval x = _ from hC.eval x] at hev
    simp only [Option.map_some, Option.some.injEq] at hev
    subst hev
    refine ⟨?_, ?_⟩
    · show inftyNorm (fun j => C.grad x j + ∑ i, C.jac x i j * lam i) = _
      rw [hC.jac]
    · show primResidual (concreteCtx C).sets mu mu _ lam = _
      rw [hs]
      rfl
  refine ⟨h5, ?_, hpd.2⟩
  rw [h5, hpd.1]
  exact le_max_left _ _

/-- the records of finished outer iterations are kept -/
theorem outerLoop_endLog_mem {X H : Type} (P : Ctx X K H n m) (S : Settings K) (st st' : St X K H m) (h : outerLoop P S st = .ok st') :
    ∀ e ∈ st.endLog, e ∈ st'.endLog := by
  refine outerLoop_ind P S (R := fun a b => ∀ e ∈ a.endLog, e ∈ b.endLog) ?_ ?_ ?_ st st' h
  · intro st _ e he; exact he
  · intro st st1 _ _ hin _ e he
    show e ∈ (afterInner S st1).endLog
    rw [afterInner_endLog, (innerLoop_frame P S _ _ hin).endLog]
    exact List.mem_append_left _ he
  · intro st st1 st' _ _ hin _ _ ih e he
    refine ih e ?_
    show e ∈ (afterInner S st1).endLog
    rw [afterInner_endLog, (innerLoop_frame P S _ _ hin).endLog]
    exact List.mem_append_left _ he

/-- what the outer loop keeps: `l` penalty reductions and `a` tolerance reductions done, at most `t` outer iterations to go -/
structure CvConv (C : StepCfg (Fin n → K) K n m) (S : Settings K) (theta M q R g : K) (ls : Fin m → K) (levels rounds l a t : ℕ)
    (st : St (Fin n → K) K (Hidden K n m) m) : Prop where
  base : CvOuter C S st
  conv : st.converged = .uninit
  acc : st.innerTol ≤ theta * st.mu
  level : st.mu ≤ max (S.muInit * S.muUpdateFactor ^ l) S.muLower
  l_le : l ≤ levels
  inner : st.innerTol ≤ max (M * q ^ a) S.innerTolMin
  prim : st.primTol ≤ max (M * q ^ a) S.targetTol
  primLow : S.targetTol ≤ st.primTol
  a_le : a ≤ rounds
  radius0 : 0 ≤ R - t * g
  radius : ∑ i, (st.lamsPrev i - ls i) ^ 2 ≤ (R - t * g) ^ 2
  fuel : (levels - l) * (rounds + 1) + (rounds - a) + 1 ≤ t

theorem max_mul_le (M q c d p x : K) (a : ℕ) (hq : 0 ≤ q) (hq1 : q ≤ 1) (hx0 : 0 ≤ x) (hx : x ≤ max (M * q ^ a) c) (hp : p ≤ q)
    (hc : 0 ≤ c) (hcd : c ≤ d) : max (x * p) d ≤ max (M * q ^ (a + 1)) d := by
  refine max_le ?_ (le_max_right _ _)
  have h1 : x * p ≤ x * q := mul_le_mul_of_nonneg_left hp hx0
  rcases le_total (M * q ^ a) c with h | h
  · rw [max_eq_right h] at hx
    have : x * q ≤ x := mul_le_of_le_one_right hx0 hq1
    exact le_trans (le_trans h1 (le_trans this (le_trans hx hcd))) (le_max_right _ _)
  · rw [max_eq_left h] at hx
    refine le_trans (le_trans h1 (mul_le_mul_of_nonneg_right hx hq)) ?_
    rw [pow_succ, ← mul_assoc]
    exact le_max_left _ _

/-- an accepted outer iteration -/
theorem cvConv_accept (C : StepCfg (Fin n → K) K n m) (S : Settings K) {A : Fin m → Fin n → K} {k : ConvexConst K}
    (hS : ConvexSettings S C.ls k A) (h theta beta R0 R M q : K) (levels rounds : ℕ)
    (hV : ConvexConvergence S A h theta beta R0 R levels rounds) (hq0 : 0 ≤ q) (hq1 : q ≤ 1)
    (hpow : ∀ mu, S.muLower ≤ mu → mu ≤ S.muInit → S.pow (mu / S.muUpper) S.dualBeta ≤ q ∧ S.pow (mu / S.muUpper) S.primBeta ≤ q)
    (ls : Fin m → K) (l a t : ℕ) (st : St (Fin n → K) K (Hidden K n m) m)
    (hst : CvConv C S theta M q R (beta + 2 * (m * theta)) ls levels rounds l a (t + 1) st)
    (hrad : ∑ i, (st.lamsOpt i - ls i) ^ 2 ≤ (R - t * (beta + 2 * (m * theta))) ^ 2) (ha : a < rounds) (hp : st.prim < st.primTol) (j : ℕ) :
    CvConv C S theta M q R (beta + 2 * (m * theta)) ls levels rounds l (a + 1) t
      { setProxParameter (afterInner S st) ((afterInner S st).rho * S.rhoUpdateFactor) with alIters := j } := by
  have hb := cvOuter_next C S hS st hst.base j
  have hth := hV.theta0
  have hbe := hV.beta0
  have hmt : 0 ≤ (m : K) * theta := by positivity
  have e : afterInner S st = updateToleranceSuccess S (acceptMultipliers S { st with
      xPrev := st.xOpt, target := st.xOpt, endLog := st.endLog ++ [⟨st.prim, st.dual, st.xOpt⟩] }) := by
    unfold afterInner; simp only; rw [if_pos hp]
  have i0 : 0 ≤ st.innerTol := le_trans hS.tolMin.le hst.base.tol
  have t0 : 0 ≤ S.targetTol := le_trans hS.tolMin.le hV.target.le
  have p0 : 0 ≤ st.primTol := le_trans t0 hst.primLow
  obtain ⟨hp1, hp2⟩ := hpow st.mu hst.base.lower hst.base.upper
  have hmu0 : 0 ≤ st.mu := le_trans hS.lower.le hst.base.lower
  refine ⟨hb, ?_, ?_, ?_, hst.l_le, ?_, ?_, ?_, ha, ?_, ?_, ?_⟩
  · show (afterInner S st).converged = _
    rw [afterInner_converged]; exact hst.conv
  · rw [e]
    show max (st.innerTol * S.pow (st.mu / S.muUpper) S.dualBeta) S.innerTolMin ≤ theta * st.mu
    refine max_le ?_ (le_trans hV.accuracyMin (mul_le_mul_of_nonneg_left hst.base.lower hth))
    exact le_trans (mul_le_of_le_one_right i0 (le_trans hp1 hq1)) hst.acc
  · rw [e]; exact hst.level
  · rw [e]
    exact max_mul_le M q S.innerTolMin S.innerTolMin _ st.innerTol a hq0 hq1 i0 hst.inner hp1 hS.tolMin.le le_rfl
  · rw [e]
    exact max_mul_le M q S.targetTol S.targetTol _ st.primTol a hq0 hq1 p0 hst.prim hp2 t0 le_rfl
  · rw [e]; exact le_max_right _ _
  · have := hst.radius0
    push_cast at this
    nlinarith
  · rw [e]
    show ∑ i, ((acceptMultipliers S { st with
      xPrev := st.xOpt, target := st.xOpt, endLog := st.endLog ++ [⟨st.prim, st.dual, st.xOpt⟩] }).lamsPrev i - ls i) ^ 2 ≤ _
    unfold acceptMultipliers
    rw [hV.newton]
    exact hrad
  · have := hst.fuel
    omega

/-- a rejected outer iteration above the smallest penalty -/
theorem cvConv_reject (C : StepCfg (Fin n → K) K n m) (S : Settings K) {A : Fin m → Fin n → K} {k : ConvexConst K}
    (hS : ConvexSettings S C.ls k A) (h theta beta R0 R M q : K) (levels rounds : ℕ)
    (hV : ConvexConvergence S A h theta beta R0 R levels rounds)
    (hstart : ∀ mu, S.muLower ≤ mu → mu ≤ S.muInit → S.innerTol0 * S.pow mu S.dualAlpha ≤ M ∧ S.primTol0 * S.pow mu S.primAlpha ≤ M)
    (ls : Fin m → K) (l a t : ℕ) (st : St (Fin n → K) K (Hidden K n m) m)
    (hst : CvConv C S theta M q R (beta + 2 * (m * theta)) ls levels rounds l a (t + 1) st)
    (hl : l < levels) (hmu : st.mu ≠ S.muLower) (hp : ¬ st.prim < st.primTol) (j : ℕ) :
    CvConv C S theta M q R (beta + 2 * (m * theta)) ls levels rounds (l + 1) 0 t
      { setProxParameter (afterInner S st) ((afterInner S st).rho * S.rhoUpdateFactor) with alIters := j } := by
  have hb := cvOuter_next C S hS st hst.base j
  have hth := hV.theta0
  have hbe := hV.beta0
  have hmt : 0 ≤ (m : K) * theta := by positivity
  have e : afterInner S st = updateToleranceFailure S (setPenalty { st with
      xPrev := st.xOpt, target := st.xOpt, endLog := st.endLog ++ [⟨st.prim, st.dual, st.xOpt⟩] }
      (max (st.mu * S.muUpdateFactor) S.muLower)) := by
    unfold afterInner; simp only; rw [if_neg hp]
    unfold updatePenalty
    rw [if_neg hmu]
  have hmu' : (afterInner S st).mu = max (st.mu * S.muUpdateFactor) S.muLower := by rw [e]; rfl
  have hlo : S.muLower ≤ max (st.mu * S.muUpdateFactor) S.muLower := le_max_right _ _
  have hup : max (st.mu * S.muUpdateFactor) S.muLower ≤ S.muInit := by rw [← hmu']; exact hb.upper
  obtain ⟨hs1, hs2⟩ := hstart _ hlo hup
  have r0 := hst.radius0
  push_cast at r0
  refine ⟨hb, ?_, ?_, ?_, hl, ?_, ?_, ?_, Nat.zero_le _, ?_, ?_, ?_⟩
  · show (afterInner S st).converged = _
    rw [afterInner_converged]; exact hst.conv
  · show (afterInner S st).innerTol ≤ theta * (afterInner S st).mu
    rw [hmu', e]
    exact max_le (hV.accuracy _ hlo hup) (le_trans hV.accuracyMin (mul_le_mul_of_nonneg_left hlo hth))
  · show (afterInner S st).mu ≤ _
    rw [hmu']
    refine max_le ?_ (le_max_right _ _)
    have h1 := mul_le_mul_of_nonneg_right hst.level hV.factor_nonneg
    refine le_trans h1 ?_
    rw [max_mul_of_nonneg _ _ hV.factor_nonneg, pow_succ, ← mul_assoc]
    exact max_le_max le_rfl (mul_le_of_le_one_right hS.lower.le hS.factor_le)
  · show (afterInner S st).innerTol ≤ _
    rw [e, pow_zero, mul_one]
    exact max_le_max hs1 le_rfl
  · show (afterInner S st).primTol ≤ _
    rw [e, pow_zero, mul_one]
    exact max_le_max hs2 le_rfl
  · show _ ≤ (afterInner S st).primTol
    rw [e]; exact le_max_right _ _
  · nlinarith
  · show ∑ i, ((afterInner S st).lamsPrev i - ls i) ^ 2 ≤ _
    rw [e]
    show ∑ i, (st.lamsPrev i - ls i) ^ 2 ≤ _
    refine le_trans hst.radius (pow_le_pow_left₀ (by push_cast; linarith) ?_ 2)
    push_cast
    nlinarith
  · have := hst.fuel
    have e1 : levels - l = (levels - (l + 1)) + 1 := by omega
    rw [e1, add_mul] at this
    omega

end ProxNLP
