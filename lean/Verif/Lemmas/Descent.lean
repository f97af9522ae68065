import Verif.Props.Linesearch

/-! Helper lemmas for C83: the line search succeeds within its budget when the Armijo condition holds for all small steps. -/

set_option linter.unusedSectionVars false
namespace ProxNLP

open Spec

variable {K : Type} [Field K] [LinearOrder K] [IsStrictOrderedRing K]

/-- Next trial step: in the contraction interval and raised to `alpha_min`, or a multiple of the previous one (NaN candidate). -/
theorem lsNextAlpha_contract (sqrt : K → K) (sing : LSSample K → LSSample K → K → K → Option K) (hsing : InRange sing)
    (o : LSOptions K) (ho : GoodLS o) (hlo : o.contractionMin ≤ 1 / 2) (hhi : 1 / 2 ≤ o.contractionMax) (phi0 dphi0 alpha : K)
    (ha : 0 ≤ alpha) (hd : dphi0 ≠ 0) (latest previous : LSSample K) (hl : latest.alpha ≠ 0) :
    (∃ b, o.contractionMin * alpha ≤ b ∧ b ≤ o.contractionMax * alpha ∧
      lsNextAlpha sqrt sing o phi0 dphi0 alpha latest previous = max b o.alphaMin) ∨
    (previous.valid = true ∧ lsNextAlpha sqrt sing o phi0 dphi0 alpha latest previous = o.contractionMin * previous.alpha) := by
  have hlh : o.contractionMin * alpha ≤ o.contractionMax * alpha := mul_le_mul_of_nonneg_right ho.cle ha
  have hquad : ∃ b, minimizeQuad phi0 dphi0 latest (o.contractionMin * alpha) (o.contractionMax * alpha) = some b := by
    simp only [minimizeQuad, if_neg hl]
    split_ifs with h1 h2
    · exact absurd (neg_eq_zero.1 h2) hd
    · exact ⟨_, rfl⟩
    · simp only [safeguard]
      split_ifs <;> exact ⟨_, rfl⟩
  cases hint : o.interp with
  | bisection =>
    left
    refine ⟨alpha * (1 / 2), by nlinarith, by nlinarith, ?_⟩
    simp only [lsNextAlpha, hint]
  | quadratic =>
    left
    obtain ⟨b, hb⟩ := hquad
    have := minimizeQuad_range _ _ _ _ _ _ hlh hb
    refine ⟨b, this.1, this.2, ?_⟩
    simp only [lsNextAlpha, hint, hb]
  | cubic =>
    cases hv : previous.valid with
    | false =>
      left
      obtain ⟨b, hb⟩ := hquad
      have := minimizeQuad_range _ _ _ _ _ _ hlh hb
      refine ⟨b, this.1, this.2, ?_⟩
      simp only [lsNextAlpha, hint, hb, hv, Bool.false_eq_true, if_false]
    | true =>
      cases hc : minimizeCubic sqrt sing phi0 dphi0 latest previous (o.contractionMin * alpha) (o.contractionMax * alpha) with
      | none =>
        right
        refine ⟨rfl, ?_⟩
        simp only [lsNextAlpha, hint, hc, hv, if_true]
      | some b =>
        left
        have := minimizeCubic_range _ _ hsing _ _ _ _ _ _ _ hlh hc
        refine ⟨b, this.1, this.2, ?_⟩
        simp only [lsNextAlpha, hint, hc, hv, if_true]

/-- what the line search is asked to find -/
structure ArmijoAt (phi : K → Option K) (o : LSOptions K) (phi0 dphi0 lo hi : K) (r : LSResult K) : Prop where
  lo : lo ≤ r.alpha
  hi : r.alpha ≤ hi
  val : phi r.alpha = some r.ret
  armijo : r.ret ≤ phi0 + o.armijoC1 * r.alpha * dphi0

theorem lsLoop_accepts (sqrt : K → K) (sing : LSSample K → LSSample K → K → K → Option K) (hsing : InRange sing)
    (o : LSOptions K) (ho : GoodLS o) (hlo : o.contractionMin ≤ 1 / 2) (hhi : 1 / 2 ≤ o.contractionMax) (phi : K → Option K)
    (phi0 dphi0 : K) (hd : dphi0 ≠ 0) (hphi : ∀ a, phi a ≠ none) (abar : K) (_habar : 0 < abar)
    (hA : ∀ a v, 0 < a → a ≤ abar → phi a = some v → v - phi0 ≤ o.armijoC1 * a * dphi0)
    (hmin : o.alphaMin ≤ o.contractionMin * abar) (tr0 : List K) (k : ℕ) :
    ∀ (alpha : K) (latest previous : LSSample K) (tr : List K), 0 < alpha → latest.alpha = alpha →
      phi alpha = some latest.phi →
      (previous.valid = true → o.contractionMin * previous.alpha ≤ alpha ∧ alpha ≤ previous.alpha) → o.alphaMin ≤ alpha →
      (∃ t, (alpha * o.contractionMax ^ t ≤ abar ∧ 2 * t + 1 ≤ k) ∨
        (max (o.contractionMax * alpha) (o.contractionMin * previous.alpha) * o.contractionMax ^ t ≤ abar ∧ 2 * t + 2 ≤ k)) →
      ArmijoAt phi o phi0 dphi0 (min alpha (o.contractionMin * abar)) alpha
        (lsLoop sqrt sing phi o phi0 dphi0 tr0 k alpha latest previous tr) := by
  have hmax0 : 0 < o.contractionMax := lt_of_lt_of_le ho.cmin ho.cle
  induction k with
  | zero => rintro alpha latest previous tr h0 h1 h2 h3 h4 ⟨t, h | h⟩ <;> omega
  | succ k ih =>
    intro alpha latest previous tr h0 h1 h2 h3 h4 h5
    rw [lsLoop]
    by_cases hacc : latest.phi - phi0 ≤ o.armijoC1 * alpha * dphi0
    · rw [if_pos hacc]
      refine { lo := ?_, hi := ?_, val := ?_, armijo := ?_ } <;> simp only [max_eq_left h4]
      · exact min_le_left _ _
      · exact le_rfl
      · exact h2
      · linarith
    · rw [if_neg hacc]
      have hbig : abar < alpha := by
        by_contra hc
        exact hacc (hA alpha _ h0 (not_lt.1 hc) h2)
      set a := lsNextAlpha sqrt sing o phi0 dphi0 alpha latest previous with ha
      -- the next trial
      have hnext : o.contractionMin * alpha ≤ a ∧ a ≤ max (o.contractionMax * alpha) (o.contractionMin * previous.alpha) ∧ a ≤ alpha := by
        rcases lsNextAlpha_contract sqrt sing hsing o ho hlo hhi phi0 dphi0 alpha h0.le hd latest previous (by rw [h1]; exact h0.ne')
          with ⟨b, hb1, hb2, hb3⟩ | ⟨hv, hb⟩
        · have hm : o.alphaMin ≤ b := by
            have := mul_le_mul_of_nonneg_left hbig.le ho.cmin.le
            linarith
          rw [max_eq_left hm] at hb3
          rw [ha, hb3]
          refine ⟨hb1, le_trans hb2 (le_max_left _ _), le_trans hb2 ?_⟩
          exact mul_le_of_le_one_left h0.le ho.cmax.le
        · rw [ha, hb]
          obtain ⟨p1, p2⟩ := h3 hv
          exact ⟨mul_le_mul_of_nonneg_left p2 ho.cmin.le, le_max_right _ _, p1⟩
      obtain ⟨n1, n2, n3⟩ := hnext
      have hapos : 0 < a := lt_of_lt_of_le (mul_pos ho.cmin h0) n1
      have hbig' : o.contractionMin * abar < a := lt_of_lt_of_le (mul_lt_mul_of_pos_left hbig ho.cmin) n1
      have hgt : o.alphaMin < a := lt_of_le_of_lt hmin hbig'
      cases hv : phi a with
      | none => exact absurd hv (hphi a)
      | some v =>
        simp only [hv]
        rw [if_neg (not_le.2 hgt)]
        have hrec := ih a (LSSample.mk' a v) latest (a :: tr) hapos rfl hv
          (fun _ => by rw [h1]; exact ⟨n1, n3⟩) hgt.le (by
            obtain ⟨t, ⟨q1, q2⟩ | ⟨q1, q2⟩⟩ := h5
            · cases t with
              | zero => rw [pow_zero, mul_one] at q1; exact absurd q1 (not_le.2 hbig)
              | succ t =>
                have hm : max (o.contractionMax * a) (o.contractionMin * latest.alpha) ≤ o.contractionMax * alpha := by
                  rw [h1]
                  exact max_le (mul_le_mul_of_nonneg_left n3 hmax0.le) (mul_le_mul_of_nonneg_right ho.cle h0.le)
                refine ⟨t, Or.inr ⟨le_trans (mul_le_mul_of_nonneg_right hm (pow_nonneg hmax0.le t)) ?_, by omega⟩⟩
                rw [pow_succ] at q1
                linarith
            · exact ⟨t, Or.inl ⟨le_trans (mul_le_mul_of_nonneg_right n2 (pow_nonneg hmax0.le t)) q1, by omega⟩⟩)
        exact { lo := le_trans (by rw [min_eq_right hbig'.le]; exact min_le_right _ _) hrec.lo
                hi := le_trans hrec.hi n3, val := hrec.val, armijo := hrec.armijo }

/-- The line search from the full step: if the Armijo condition holds for all steps up to `abar`, the budget allows to reach
`abar`, and the slope is not below the threshold, the step found satisfies the Armijo condition and is not small. -/
theorem lsRun_accepts (sqrt : K → K) (sing : LSSample K → LSSample K → K → K → Option K) (hsing : InRange sing)
    (o : LSOptions K) (ho : GoodLS o) (hlo : o.contractionMin ≤ 1 / 2) (hhi : 1 / 2 ≤ o.contractionMax) (phi : K → Option K)
    (phi0 dphi0 : K) (hth0 : 0 < o.dphiThresh) (hth : o.dphiThresh ≤ |dphi0|) (hphi : ∀ a, phi a ≠ none) (abar : K) (habar : 0 < abar)
    (hA : ∀ a v, 0 < a → a ≤ abar → phi a = some v → v - phi0 ≤ o.armijoC1 * a * dphi0)
    (hmin : o.alphaMin ≤ o.contractionMin * abar) (t : ℕ) (ht : o.contractionMax ^ t ≤ abar) (htk : 2 * t + 1 ≤ o.maxNumSteps)
    (fuel : ℕ) (r : LSResult K) (h : lsRun sqrt sing phi o phi0 dphi0 fuel = some r) :
    ArmijoAt phi o phi0 dphi0 (min 1 (o.contractionMin * abar)) 1 r := by
  have hd : dphi0 ≠ 0 := by
    intro hc
    rw [hc, abs_zero] at hth
    exact absurd hth (not_le.2 hth0)
  unfold lsRun at h
  cases fuel with
  | zero => simp [lsFirst] at h
  | succ fuel =>
    cases hv : phi 1 with
    | none => exact absurd hv (hphi 1)
    | some v =>
      rw [lsFirst, hv] at h
      simp only at h
      rw [if_neg (not_lt.2 hth)] at h
      cases h
      exact lsLoop_accepts sqrt sing hsing o ho hlo hhi phi phi0 dphi0 hd hphi abar habar hA hmin _ _ 1 _ _ _ one_pos rfl hv
        (fun hc => by simp [LSSample.default] at hc) ho.amin1 ⟨t, Or.inl ⟨by rw [one_mul]; exact ht, htk⟩⟩

end ProxNLP
