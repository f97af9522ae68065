import Verif.Model.Linesearch
import Verif.Lemmas.Check
import Mathlib.Algebra.Order.Archimedean.Basic
import Mathlib.Tactic.Ring
import Mathlib.Tactic.Linarith
import Mathlib.Tactic.NormNum

/-!
Property theorems C28 (step range), C29 (returned value), C30 (Armijo condition), C32 (termination) of the Armijo
line search.
-/

set_option linter.unusedSectionVars false
namespace ProxNLP

variable {K : Type} [Field K] [LinearOrder K] [IsStrictOrderedRing K]

/-- Options considered by the properties. -/
structure Spec.GoodLS (o : LSOptions K) : Prop where
  amin : 0 < o.alphaMin
  amin1 : o.alphaMin ≤ 1
  cmin : 0 < o.contractionMin
  cle : o.contractionMin ≤ o.contractionMax
  cmax : o.contractionMax < 1

/-- Singular interpolation systems: nothing is assumed of the result but that it went through the safeguard. -/
def Spec.InRange (sing : LSSample K → LSSample K → K → K → Option K) : Prop :=
  ∀ c0 c1 lo hi a, lo ≤ hi → sing c0 c1 lo hi = some a → lo ≤ a ∧ a ≤ hi

open Spec

/-! ### Helper lemmas -/

theorem lsFirst_spec (phi : K → Option K) (amin : K) (fuel : ℕ) (a : K) (tr : List K) (al : K) (s : LSSample K)
    (tr' : List K) (ha : 0 < a) (h : lsFirst phi amin fuel a tr = some (al, s, tr')) :
    (s = LSSample.mk' al s.phi ∧ phi al = some s.phi ∧ al ≤ a ∧ (al = a ∨ amin < al)) ∨
      (al = amin ∧ s = LSSample.default ∧ phi a = none) := by
  induction fuel generalizing a tr with
  | zero => simp [lsFirst] at h
  | succ fuel ih =>
    rw [lsFirst] at h
    split at h
    · rename_i v hv
      simp only [Option.some.injEq, Prod.mk.injEq] at h
      obtain ⟨rfl, rfl, -⟩ := h
      exact Or.inl ⟨rfl, hv, le_rfl, Or.inl rfl⟩
    · rename_i hv
      simp only at h
      split_ifs at h with h1
      · simp only [Option.some.injEq, Prod.mk.injEq] at h
        obtain ⟨rfl, rfl, -⟩ := h
        exact Or.inr ⟨rfl, rfl, hv⟩
      · push Not at h1
        rcases ih _ _ (mul_pos ha (by norm_num)) h with ⟨hs, hp, hle, hal⟩ | ⟨h2, h3, _⟩
        · refine Or.inl ⟨hs, hp, by linarith, ?_⟩
          · rcases hal with rfl | hal
            · exact Or.inr h1
            · exact Or.inr hal
        · exact Or.inr ⟨h2, h3, hv⟩

theorem lsFirst_count (phi : K → Option K) (amin : K) (N : ℕ) (a : K) (tr : List K)
    (hN : a * (1 / 2) ^ (N + 1) ≤ amin) (fuel : ℕ) (hf : N + 1 ≤ fuel) :
    ∃ al s tr', lsFirst phi amin fuel a tr = some (al, s, tr') ∧ tr'.length ≤ tr.length + N + 1 := by
  induction N generalizing a tr fuel with
  | zero =>
    obtain ⟨k, rfl⟩ : ∃ k, fuel = k + 1 := ⟨fuel - 1, by omega⟩
    rw [lsFirst]
    split
    · exact ⟨_, _, _, rfl, by simp⟩
    · rw [if_pos (by simpa using hN)]
      exact ⟨_, _, _, rfl, by simp⟩
  | succ N ih =>
    obtain ⟨k, rfl⟩ : ∃ k, fuel = k + 1 := ⟨fuel - 1, by omega⟩
    rw [lsFirst]
    split
    · exact ⟨_, _, _, rfl, by simp⟩
    · simp only
      split_ifs with h1
      · exact ⟨_, _, _, rfl, by simp⟩
      · obtain ⟨al, s, tr', h, hl⟩ := ih (a * (1 / 2)) (a :: tr) (by
          rw [mul_assoc, ← pow_succ']; exact hN) k (by omega)
        exact ⟨al, s, tr', h, by simp at hl; omega⟩

theorem safeguard_range (coeffs : List K) (lo hi : K) (h : lo ≤ hi) (c : Cand K) (a : K)
    (ha : safeguard coeffs lo hi c = some a) : lo ≤ a ∧ a ≤ hi := by
  cases c with
  | nan => simp [safeguard] at ha
  | inf =>
    simp only [safeguard, Option.some.injEq] at ha
    rw [← ha]
    split_ifs
    · exact ⟨le_rfl, h⟩
    · exact ⟨h, le_rfl⟩
  | fin b =>
    simp only [safeguard] at ha
    split_ifs at ha with h1 h2
    · cases ha; exact ⟨le_rfl, h⟩
    · cases ha; exact ⟨h, le_rfl⟩
    · cases ha
      push Not at h1
      exact ⟨h1.2, h1.1⟩

theorem minimizeQuad_range (phi0 dphi0 : K) (c0 : LSSample K) (lo hi a : K) (h : lo ≤ hi)
    (ha : minimizeQuad phi0 dphi0 c0 lo hi = some a) : lo ≤ a ∧ a ≤ hi := by
  simp only [minimizeQuad] at ha
  split at ha
  · split at ha
    · simp at ha
    · cases ha; exact ⟨h, le_rfl⟩
  · exact safeguard_range _ _ _ h _ _ ha

theorem minimizeCubic_range (sqrt : K → K) (sing : LSSample K → LSSample K → K → K → Option K)
    (hsing : InRange sing) (phi0 dphi0 : K) (c0 c1 : LSSample K) (lo hi a : K) (h : lo ≤ hi)
    (ha : minimizeCubic sqrt sing phi0 dphi0 c0 c1 lo hi = some a) : lo ≤ a ∧ a ≤ hi := by
  simp only [minimizeCubic] at ha
  split at ha
  · exact hsing _ _ _ _ _ h ha
  · exact safeguard_range _ _ _ h _ _ ha

/-- Next trial: NaN case, or in the contraction interval (bisection: half) and raised to `alpha_min`. -/
theorem lsNextAlpha_spec (sqrt : K → K) (sing : LSSample K → LSSample K → K → K → Option K)
    (hsing : InRange sing) (o : LSOptions K) (ho : GoodLS o) (phi0 dphi0 alpha : K) (ha : 0 ≤ alpha)
    (latest previous : LSSample K) :
    lsNextAlpha sqrt sing o phi0 dphi0 alpha latest previous = o.contractionMin * previous.alpha ∨
    ∃ b, 0 ≤ b ∧ b ≤ alpha ∧ lsNextAlpha sqrt sing o phi0 dphi0 alpha latest previous = max b o.alphaMin := by
  have hlo : 0 ≤ o.contractionMin * alpha := mul_nonneg ho.cmin.le ha
  have hlh : o.contractionMin * alpha ≤ o.contractionMax * alpha := mul_le_mul_of_nonneg_right ho.cle ha
  have hhi : o.contractionMax * alpha ≤ alpha := mul_le_of_le_one_left ha ho.cmax.le
  have key : ∀ c : Option K, (∀ b, c = some b → o.contractionMin * alpha ≤ b ∧ b ≤ o.contractionMax * alpha) →
      (match c with
        | none => o.contractionMin * previous.alpha
        | some a => max a o.alphaMin) = o.contractionMin * previous.alpha ∨
      ∃ b, 0 ≤ b ∧ b ≤ alpha ∧ (match c with
        | none => o.contractionMin * previous.alpha
        | some a => max a o.alphaMin) = max b o.alphaMin := by
    intro c hc
    cases c with
    | none => exact Or.inl rfl
    | some b => exact Or.inr ⟨b, hlo.trans (hc b rfl).1, (hc b rfl).2.trans hhi, rfl⟩
  cases hint : o.interp <;> simp only [lsNextAlpha, hint]
  · exact Or.inr ⟨alpha * (1 / 2), by linarith, by linarith, rfl⟩
  · exact key _ fun b hb => minimizeQuad_range _ _ _ _ _ _ hlh hb
  · refine key _ fun b hb => ?_
    split at hb
    · exact minimizeCubic_range _ _ hsing _ _ _ _ _ _ _ hlh hb
    · exact minimizeQuad_range _ _ _ _ _ _ hlh hb

/-- No NaN with bisection or quadratic interpolation, a nonzero slope and a sample at a nonzero step. -/
theorem lsNextAlpha_noNaN (sqrt : K → K) (sing : LSSample K → LSSample K → K → K → Option K)
    (o : LSOptions K) (ho : GoodLS o) (hi : o.interp ≠ .cubic) (phi0 dphi0 alpha : K)
    (ha : 0 ≤ alpha) (hd : dphi0 ≠ 0) (latest previous : LSSample K) (hl : latest.alpha ≠ 0) :
    ∃ b, 0 ≤ b ∧ b ≤ alpha ∧ lsNextAlpha sqrt sing o phi0 dphi0 alpha latest previous = max b o.alphaMin := by
  have hlo : 0 ≤ o.contractionMin * alpha := mul_nonneg ho.cmin.le ha
  have hlh : o.contractionMin * alpha ≤ o.contractionMax * alpha := mul_le_mul_of_nonneg_right ho.cle ha
  have hhi : o.contractionMax * alpha ≤ alpha := mul_le_of_le_one_left ha ho.cmax.le
  cases hint : o.interp <;> simp only [lsNextAlpha, hint]
  · exact ⟨alpha * (1 / 2), by linarith, by linarith, rfl⟩
  · have hs : ∃ b, minimizeQuad phi0 dphi0 latest (o.contractionMin * alpha) (o.contractionMax * alpha) = some b := by
      simp only [minimizeQuad, if_neg hl]
      split_ifs with h1 h2
      · exact absurd (neg_eq_zero.1 h2) hd
      · exact ⟨_, rfl⟩
      · simp only [safeguard]
        split_ifs <;> exact ⟨_, rfl⟩
    obtain ⟨b, hb⟩ := hs
    have := minimizeQuad_range _ _ _ _ _ _ hlh hb
    rw [hb]
    exact ⟨b, hlo.trans this.1, this.2.trans hhi, rfl⟩
  · exact absurd hint hi

/-! ### C28 -/

theorem lsLoop_range (sqrt : K → K) (sing : LSSample K → LSSample K → K → K → Option K) (hsing : InRange sing)
    (phi : K → Option K) (o : LSOptions K) (ho : GoodLS o) (phi0 dphi0 : K) (tr0 : List K) (k : ℕ) (alpha : K)
    (latest previous : LSSample K) (tr : List K) (h0 : 0 ≤ alpha) (h1 : alpha ≤ 1)
    (hl0 : 0 ≤ latest.alpha) (hl1 : latest.alpha ≤ 1) (hp0 : 0 ≤ previous.alpha) (hp1 : previous.alpha ≤ 1) :
    o.alphaMin ≤ (lsLoop sqrt sing phi o phi0 dphi0 tr0 k alpha latest previous tr).alpha ∧
      (lsLoop sqrt sing phi o phi0 dphi0 tr0 k alpha latest previous tr).alpha ≤ 1 := by
  induction k generalizing alpha latest previous tr with
  | zero => exact ⟨le_max_right _ _, max_le h1 ho.amin1⟩
  | succ k ih =>
    have hn : 0 ≤ lsNextAlpha sqrt sing o phi0 dphi0 alpha latest previous ∧
        lsNextAlpha sqrt sing o phi0 dphi0 alpha latest previous ≤ 1 := by
      rcases lsNextAlpha_spec sqrt sing hsing o ho phi0 dphi0 alpha h0 latest previous with h | ⟨b, hb0, hb1, h⟩
      · rw [h]
        exact ⟨mul_nonneg ho.cmin.le hp0, mul_le_one₀ (ho.cle.trans ho.cmax.le) hp0 hp1⟩
      · rw [h]
        exact ⟨hb0.trans (le_max_left _ _), max_le (hb1.trans h1) ho.amin1⟩
    rw [lsLoop]
    split_ifs
    · exact ⟨le_max_right _ _, max_le h1 ho.amin1⟩
    · simp only
      split
      · exact ih _ _ _ _ hn.1 hn.2 hl0 hl1 hl0 hl1
      · split_ifs
        · exact ⟨le_max_right _ _, max_le hn.2 ho.amin1⟩
        · exact ih _ _ _ _ hn.1 hn.2 hn.1 hn.2 hl0 hl1

theorem lsFirst_range (phi : K → Option K) (o : LSOptions K) (ho : GoodLS o) (fuel : ℕ) (al : K) (s : LSSample K)
    (tr : List K) (h : lsFirst phi o.alphaMin fuel 1 [] = some (al, s, tr)) :
    o.alphaMin ≤ al ∧ al ≤ 1 ∧ 0 ≤ s.alpha ∧ s.alpha ≤ 1 := by
  rcases lsFirst_spec _ _ _ _ _ _ _ _ one_pos h with ⟨hs, _, h1, hal⟩ | ⟨rfl, rfl, _⟩
  · have h2 : o.alphaMin ≤ al := by
      rcases hal with rfl | hal
      · exact ho.amin1
      · exact hal.le
    rw [hs]
    exact ⟨h2, h1, ho.amin.le.trans h2, h1⟩
  · exact ⟨le_rfl, ho.amin1, le_rfl, zero_le_one⟩

/-- C28: the step set by `run` lies in `[alpha_min, 1]`, for every merit function (throwing or not), every initial
value and slope, every interpolation strategy. -/
theorem C28_alpha_range (sqrt : K → K) (sing : LSSample K → LSSample K → K → K → Option K) (hsing : InRange sing)
    (phi : K → Option K) (o : LSOptions K) (ho : GoodLS o) (phi0 dphi0 : K) (fuel : ℕ) (r : LSResult K)
    (h : lsRun sqrt sing phi o phi0 dphi0 fuel = some r) : o.alphaMin ≤ r.alpha ∧ r.alpha ≤ 1 := by
  unfold lsRun at h
  split at h
  · simp at h
  · rename_i al s tr hf
    obtain ⟨h1, h2, h3, h4⟩ := lsFirst_range phi o ho fuel al s tr hf
    split_ifs at h with hd
    · cases h; exact ⟨h1, h2⟩
    · cases h
      exact lsLoop_range sqrt sing hsing phi o ho phi0 dphi0 tr _ al s _ _ (ho.amin.le.trans h1) h2 h3 h4
        le_rfl zero_le_one

/-- C28, counterpart for the trial steps: `phi` is only ever called at steps in `[0, 1]`. -/
theorem C28_trials_in_unit_interval (sqrt : K → K) (sing : LSSample K → LSSample K → K → K → Option K)
    (hsing : InRange sing) (phi : K → Option K) (o : LSOptions K) (ho : GoodLS o) (phi0 dphi0 : K) (fuel : ℕ)
    (r : LSResult K) (h : lsRun sqrt sing phi o phi0 dphi0 fuel = some r) :
    ∀ a ∈ r.trace0 ++ r.trace, 0 ≤ a ∧ a ≤ 1 := by
  have first : ∀ fuel (a : K) tr al s tr', lsFirst phi o.alphaMin fuel a tr = some (al, s, tr') → 0 ≤ a → a ≤ 1 →
      (∀ b ∈ tr, (0 : K) ≤ b ∧ b ≤ 1) → ∀ b ∈ tr', 0 ≤ b ∧ b ≤ 1 := by
    intro fuel
    induction fuel with
    | zero => intro a tr al s tr' h; simp [lsFirst] at h
    | succ fuel ih =>
      intro a tr al s tr' h ha0 ha1 htr
      have hc : ∀ b ∈ a :: tr, (0 : K) ≤ b ∧ b ≤ 1 := by
        intro b hb
        rcases List.mem_cons.1 hb with rfl | hb
        · exact ⟨ha0, ha1⟩
        · exact htr b hb
      rw [lsFirst] at h
      split at h
      · simp only [Option.some.injEq, Prod.mk.injEq] at h
        obtain ⟨-, -, rfl⟩ := h
        exact hc
      · simp only at h
        split_ifs at h
        · simp only [Option.some.injEq, Prod.mk.injEq] at h
          obtain ⟨-, -, rfl⟩ := h
          exact hc
        · exact ih _ _ _ _ _ h (by linarith) (by linarith) hc
  have loop : ∀ tr0 k (alpha : K) latest previous tr, 0 ≤ alpha → alpha ≤ 1 →
      0 ≤ LSSample.alpha latest → LSSample.alpha latest ≤ 1 → 0 ≤ LSSample.alpha previous →
      LSSample.alpha previous ≤ 1 → (∀ b ∈ tr0 ++ tr, (0 : K) ≤ b ∧ b ≤ 1) →
      ∀ b ∈ (lsLoop sqrt sing phi o phi0 dphi0 tr0 k alpha latest previous tr).trace0 ++
        (lsLoop sqrt sing phi o phi0 dphi0 tr0 k alpha latest previous tr).trace, 0 ≤ b ∧ b ≤ 1 := by
    intro tr0 k
    induction k with
    | zero => intro _ _ _ _ _ _ _ _ _ _ h; exact h
    | succ k ih =>
      intro alpha latest previous tr h0 h1 hl0 hl1 hp0 hp1 htr
      have hn : 0 ≤ lsNextAlpha sqrt sing o phi0 dphi0 alpha latest previous ∧
          lsNextAlpha sqrt sing o phi0 dphi0 alpha latest previous ≤ 1 := by
        rcases lsNextAlpha_spec sqrt sing hsing o ho phi0 dphi0 alpha h0 latest previous with h | ⟨b, hb0, hb1, h⟩
        · rw [h]
          exact ⟨mul_nonneg ho.cmin.le hp0, mul_le_one₀ (ho.cle.trans ho.cmax.le) hp0 hp1⟩
        · rw [h]
          exact ⟨hb0.trans (le_max_left _ _), max_le (hb1.trans h1) ho.amin1⟩
      have hc : ∀ b ∈ tr0 ++ lsNextAlpha sqrt sing o phi0 dphi0 alpha latest previous :: tr,
          (0 : K) ≤ b ∧ b ≤ 1 := by
        intro b hb
        rcases List.mem_append.1 hb with hb | hb
        · exact htr b (List.mem_append.2 (Or.inl hb))
        · rcases List.mem_cons.1 hb with rfl | hb
          · exact hn
          · exact htr b (List.mem_append.2 (Or.inr hb))
      rw [lsLoop]
      split_ifs
      · exact htr
      · simp only
        split
        · exact ih _ _ _ _ hn.1 hn.2 hl0 hl1 hl0 hl1 hc
        · split_ifs
          · exact hc
          · exact ih _ _ _ _ hn.1 hn.2 hn.1 hn.2 hl0 hl1 hc
  unfold lsRun at h
  split at h
  · simp at h
  · rename_i al s tr hf
    obtain ⟨h1, h2, h3, h4⟩ := lsFirst_range phi o ho fuel al s tr hf
    have htr := first fuel 1 [] al s tr hf zero_le_one le_rfl (by simp)
    split_ifs at h with hd
    · cases h; simpa using htr
    · cases h
      exact loop tr _ al s _ _ (ho.amin.le.trans h1) h2 h3 h4 le_rfl zero_le_one (by simpa using htr)

/-! ### C32 -/

theorem lsLoop_trace (sqrt : K → K) (sing : LSSample K → LSSample K → K → K → Option K)
    (phi : K → Option K) (o : LSOptions K) (phi0 dphi0 : K) (tr0 : List K) (k : ℕ) (alpha : K)
    (latest previous : LSSample K) (tr : List K) :
    (lsLoop sqrt sing phi o phi0 dphi0 tr0 k alpha latest previous tr).trace0 = tr0 ∧
    (lsLoop sqrt sing phi o phi0 dphi0 tr0 k alpha latest previous tr).trace.length ≤ tr.length + k ∧
    ((lsLoop sqrt sing phi o phi0 dphi0 tr0 k alpha latest previous tr).exhausted = true →
      (lsLoop sqrt sing phi o phi0 dphi0 tr0 k alpha latest previous tr).trace.length = tr.length + k) := by
  induction k generalizing alpha latest previous tr with
  | zero => simp [lsLoop]
  | succ k ih =>
    rw [lsLoop]
    split_ifs
    · simp
    · simp only
      split
      · obtain ⟨h1, h2, h3⟩ := ih (lsNextAlpha sqrt sing o phi0 dphi0 alpha latest previous) latest latest
          (lsNextAlpha sqrt sing o phi0 dphi0 alpha latest previous :: tr)
        simp only [List.length_cons] at h2 h3
        exact ⟨h1, by omega, fun h => by have := h3 h; omega⟩
      · rename_i v _
        split_ifs
        · simp
        · obtain ⟨h1, h2, h3⟩ := ih (lsNextAlpha sqrt sing o phi0 dphi0 alpha latest previous)
            (LSSample.mk' (lsNextAlpha sqrt sing o phi0 dphi0 alpha latest previous) v) latest
            (lsNextAlpha sqrt sing o phi0 dphi0 alpha latest previous :: tr)
          simp only [List.length_cons] at h2 h3
          exact ⟨h1, by omega, fun h => by have := h3 h; omega⟩

/-- C32: with any `N` such that `2^-(N+1) ≤ alpha_min`, `run` ends and makes at most `N + 1 + max_num_steps`
evaluations of `phi`, whatever `phi` is. -/
theorem C32_terminates_bound (sqrt : K → K) (sing : LSSample K → LSSample K → K → K → Option K)
    (phi : K → Option K) (o : LSOptions K) (phi0 dphi0 : K) (N : ℕ) (hN : (1 / 2 : K) ^ (N + 1) ≤ o.alphaMin)
    (fuel : ℕ) (hfuel : N + 1 ≤ fuel) :
    ∃ r, lsRun sqrt sing phi o phi0 dphi0 fuel = some r ∧
      r.trace0.length + r.trace.length ≤ N + 1 + o.maxNumSteps := by
  obtain ⟨al, s, tr, h, hl⟩ := lsFirst_count phi o.alphaMin N 1 [] (by simpa using hN) fuel hfuel
  unfold lsRun
  rw [h]
  simp only
  simp only [List.length_nil, zero_add] at hl
  split_ifs
  · exact ⟨_, rfl, by simp; omega⟩
  · obtain ⟨h1, h2, _⟩ := lsLoop_trace sqrt sing phi o phi0 dphi0 tr o.maxNumSteps al s LSSample.default []
    refine ⟨_, rfl, ?_⟩
    rw [h1]
    simp only [List.length_nil, zero_add] at h2
    omega

/-- C32: over an Archimedean field and for a positive `alpha_min` such a bound exists and depends only on the
options. -/
theorem C32_terminates [Archimedean K] (o : LSOptions K) (ha : 0 < o.alphaMin) :
    ∃ B : ℕ, ∀ (sqrt : K → K) (sing : LSSample K → LSSample K → K → K → Option K) (phi : K → Option K)
      (phi0 dphi0 : K), ∃ r, lsRun sqrt sing phi o phi0 dphi0 B = some r ∧
      r.trace0.length + r.trace.length ≤ B + o.maxNumSteps := by
  obtain ⟨N, hN⟩ := exists_pow_lt_of_lt_one ha (by norm_num : (1 / 2 : K) < 1)
  refine ⟨N + 1, fun sqrt sing phi phi0 dphi0 => ?_⟩
  refine C32_terminates_bound sqrt sing phi o phi0 dphi0 N ?_ (N + 1) le_rfl
  refine le_trans ?_ hN.le
  rw [pow_succ]
  exact mul_le_of_le_one_right (by positivity) (by norm_num)

/-! ### C30 -/

theorem lsLoop_armijo (sqrt : K → K) (sing : LSSample K → LSSample K → K → K → Option K)
    (phi : K → Option K) (o : LSOptions K) (phi0 dphi0 : K) (tr0 : List K) (k : ℕ) (alpha : K)
    (latest previous : LSSample K) (tr : List K) :
    let r := lsLoop sqrt sing phi o phi0 dphi0 tr0 k alpha latest previous tr
    r.ret ≤ phi0 + o.armijoC1 * r.alpha * dphi0 ∨ r.alpha = o.alphaMin ∨ r.exhausted = true := by
  induction k generalizing alpha latest previous tr with
  | zero => simp [lsLoop]
  | succ k ih =>
    rw [lsLoop]
    split_ifs with h
    · by_cases hc : o.alphaMin ≤ alpha
      · left
        simp only [max_eq_left hc]
        linarith
      · right; left
        exact max_eq_right (not_le.1 hc).le
    · simp only
      split
      · exact ih _ _ _ _
      · split_ifs with ha
        · right; left
          exact max_eq_right ha
        · exact ih _ _ _ _

/-- C30 for the returned value, every merit function and all options: on return the returned value satisfies the
Armijo inequality, or the slope was below the threshold, or the step is `alpha_min`, or all `max_num_steps` trials
of the main loop were used. -/
theorem C30_armijo_or_exit (sqrt : K → K) (sing : LSSample K → LSSample K → K → K → Option K)
    (phi : K → Option K) (o : LSOptions K) (phi0 dphi0 : K) (fuel : ℕ) (r : LSResult K)
    (h : lsRun sqrt sing phi o phi0 dphi0 fuel = some r) :
    r.ret ≤ phi0 + o.armijoC1 * r.alpha * dphi0 ∨ |dphi0| < o.dphiThresh ∨ r.alpha = o.alphaMin ∨
      r.trace.length = o.maxNumSteps := by
  unfold lsRun at h
  split at h
  · simp at h
  · rename_i al s tr hf
    split_ifs at h with hd
    · exact Or.inr (Or.inl hd)
    · simp only [Option.some.injEq] at h
      rcases lsLoop_armijo sqrt sing phi o phi0 dphi0 tr o.maxNumSteps al s LSSample.default [] with h1 | h1 | h1
      · rw [h] at h1; exact Or.inl h1
      · rw [h] at h1; exact Or.inr (Or.inr (Or.inl h1))
      · have h2 := (lsLoop_trace sqrt sing phi o phi0 dphi0 tr o.maxNumSteps al s LSSample.default []).2.2 h1
        rw [h] at h2
        exact Or.inr (Or.inr (Or.inr (by simpa using h2)))

/-! ### C29 -/

theorem lsLoop_value (sqrt : K → K) (sing : LSSample K → LSSample K → K → K → Option K)
    (f : K → K) (o : LSOptions K) (phi0 dphi0 : K) (tr0 : List K) (k : ℕ) (alpha : K)
    (latest previous : LSSample K) (tr : List K) (h : latest.phi = f alpha) :
    let r := lsLoop sqrt sing (fun a => some (f a)) o phi0 dphi0 tr0 k alpha latest previous tr
    ∃ a, r.ret = f a ∧ r.alpha = max a o.alphaMin := by
  induction k generalizing alpha latest previous tr with
  | zero => exact ⟨alpha, h, rfl⟩
  | succ k ih =>
    rw [lsLoop]
    split_ifs
    · exact ⟨alpha, h, rfl⟩
    · simp only
      split_ifs
      · exact ⟨_, rfl, rfl⟩
      · exact ih _ _ _ _ rfl

/-- C29 for merit functions that never throw, any interpolation: the returned value is that of an evaluated step
`a`, and the output step is `a` raised to `alpha_min`.  (They differ only if `a < alpha_min`, which needs a NaN
interpolation step: see `C29_value_false_cubic`.) -/
theorem C29_value_total (sqrt : K → K) (sing : LSSample K → LSSample K → K → K → Option K)
    (f : K → K) (o : LSOptions K) (phi0 dphi0 : K) (fuel : ℕ) (r : LSResult K)
    (ho : GoodLS o)
    (h : lsRun sqrt sing (fun a => some (f a)) o phi0 dphi0 fuel = some r) :
    ∃ a, r.ret = f a ∧ r.alpha = max a o.alphaMin := by
  unfold lsRun at h
  cases fuel with
  | zero => simp [lsFirst] at h
  | succ fuel =>
    simp only [lsFirst] at h
    split_ifs at h
    · cases h
      exact ⟨1, rfl, (max_eq_left ho.amin1).symm⟩
    · cases h
      exact lsLoop_value sqrt sing f o phi0 dphi0 _ _ _ _ _ _ rfl

theorem lsLoop_value_mono (sqrt : K → K) (sing : LSSample K → LSSample K → K → K → Option K)
    (phi : K → Option K) (hmono : ∀ a b, a ≤ b → phi a = none → phi b = none)
    (o : LSOptions K) (ho : GoodLS o) (hi : o.interp ≠ .cubic) (phi0 dphi0 : K) (hd : dphi0 ≠ 0)
    (tr0 : List K) (k : ℕ) (alpha : K) (latest previous : LSSample K) (tr : List K)
    (h : phi alpha = some latest.phi) (ha : o.alphaMin ≤ alpha) (hl : latest.alpha = alpha) :
    let r := lsLoop sqrt sing phi o phi0 dphi0 tr0 k alpha latest previous tr
    phi r.alpha = some r.ret := by
  induction k generalizing alpha latest previous tr with
  | zero => simp only [lsLoop]; rwa [max_eq_left ha]
  | succ k ih =>
    rw [lsLoop]
    split_ifs
    · simp only; rwa [max_eq_left ha]
    · simp only
      have hpos : 0 < alpha := ho.amin.trans_le ha
      obtain ⟨b, hb0, hb1, hb⟩ := lsNextAlpha_noNaN sqrt sing o ho hi phi0 dphi0 alpha hpos.le hd latest previous
        (by rw [hl]; exact hpos.ne')
      have hle : lsNextAlpha sqrt sing o phi0 dphi0 alpha latest previous ≤ alpha := by
        rw [hb]; exact max_le hb1 ha
      have hge : o.alphaMin ≤ lsNextAlpha sqrt sing o phi0 dphi0 alpha latest previous := by
        rw [hb]; exact le_max_right _ _
      split
      · rename_i hn
        rw [hmono _ _ hle hn] at h
        simp at h
      · rename_i v hv
        split_ifs with h1
        · simp only; rwa [max_eq_left hge]
        · exact ih _ _ _ _ hv hge rfl

theorem lsFirst_success (phi : K → Option K) (amin : K) (fuel : ℕ) (a : K) (tr : List K) (al : K) (s : LSSample K)
    (tr' : List K) (h : lsFirst phi amin fuel a tr = some (al, s, tr')) (k : ℕ)
    (hk : phi (a * (1 / 2) ^ k) ≠ none) (hkm : ∀ j, 0 < j → j ≤ k → amin < a * (1 / 2) ^ j) :
    phi al = some s.phi ∧ s.alpha = al := by
  induction fuel generalizing a tr k with
  | zero => simp [lsFirst] at h
  | succ fuel ih =>
    rw [lsFirst] at h
    split at h
    · rename_i v hv
      simp only [Option.some.injEq, Prod.mk.injEq] at h
      obtain ⟨rfl, rfl, -⟩ := h
      exact ⟨hv, rfl⟩
    · rename_i hv
      cases k with
      | zero => simp [hv] at hk
      | succ k =>
        simp only at h
        have h1 := hkm 1 one_pos (by omega)
        rw [pow_one] at h1
        rw [if_neg (not_le.2 h1)] at h
        refine ih _ _ h k (by rw [mul_assoc, ← pow_succ']; exact hk) ?_
        intro j hj hjk
        rw [mul_assoc, ← pow_succ']
        exact hkm (j + 1) (by omega) (by omega)

/-- C29 (partial): the returned value is `phi(alpha)` when the interpolation is bisection or quadratic, `phi` throws
on no step or only on the longer ones, one of the halved steps above `alpha_min` does not throw, and the slope
threshold is positive.  The full claim (every `phi`, cubic too) is false, see the three theorems below. -/
theorem C29_value_partial (sqrt : K → K) (sing : LSSample K → LSSample K → K → K → Option K)
    (phi : K → Option K) (hmono : ∀ a b, a ≤ b → phi a = none → phi b = none)
    (o : LSOptions K) (ho : GoodLS o) (hi : o.interp ≠ .cubic) (hth : 0 < o.dphiThresh)
    (hsome : ∃ k : ℕ, phi ((1 / 2) ^ k) ≠ none ∧ (k = 0 ∨ o.alphaMin < (1 / 2) ^ k))
    (phi0 dphi0 : K) (fuel : ℕ) (r : LSResult K)
    (h : lsRun sqrt sing phi o phi0 dphi0 fuel = some r) : phi r.alpha = some r.ret := by
  unfold lsRun at h
  split at h
  · simp at h
  · rename_i al s tr hf
    obtain ⟨k, hk, hkm⟩ := hsome
    have hs := lsFirst_success phi o.alphaMin fuel 1 [] al s tr hf k (by simpa using hk) (by
      intro j hj hjk
      rcases hkm with rfl | hkm
      · omega
      · rw [one_mul]
        exact hkm.trans_le (pow_le_pow_of_le_one (by norm_num) (by norm_num) hjk))
    have hr := lsFirst_range phi o ho fuel al s tr hf
    split_ifs at h with hd
    · cases h; exact hs.1
    · cases h
      refine lsLoop_value_mono sqrt sing phi hmono o ho hi phi0 dphi0 ?_ tr _ al s _ _ hs.1 hr.1 hs.2
      rintro rfl
      rw [abs_zero] at hd
      exact hd hth

/-- C30 (partial) for `phi(alpha)` itself, under the conditions of `C29_value_partial`; false in general
(`C30_armijo_false`). -/
theorem C30_armijo_partial (sqrt : K → K) (sing : LSSample K → LSSample K → K → K → Option K)
    (phi : K → Option K) (hmono : ∀ a b, a ≤ b → phi a = none → phi b = none)
    (o : LSOptions K) (ho : GoodLS o) (hi : o.interp ≠ .cubic) (hth : 0 < o.dphiThresh)
    (hsome : ∃ k : ℕ, phi ((1 / 2) ^ k) ≠ none ∧ (k = 0 ∨ o.alphaMin < (1 / 2) ^ k))
    (phi0 dphi0 : K) (fuel : ℕ) (r : LSResult K)
    (h : lsRun sqrt sing phi o phi0 dphi0 fuel = some r) :
    (∃ v, phi r.alpha = some v ∧ v ≤ phi0 + o.armijoC1 * r.alpha * dphi0) ∨ |dphi0| < o.dphiThresh ∨
      r.alpha = o.alphaMin ∨ r.trace.length = o.maxNumSteps := by
  rcases C30_armijo_or_exit sqrt sing phi o phi0 dphi0 fuel r h with h1 | h1
  · exact Or.inl ⟨_, C29_value_partial sqrt sing phi hmono o ho hi hth hsome phi0 dphi0 fuel r h, h1⟩
  · exact Or.inr h1

/-! ### Witnesses -/

/-- The default options with another interpolation, sufficient-decrease constant and minimal step. -/
def Demo.lsOpts (i : LSInterp) (c1 amin : ℚ) : LSOptions ℚ :=
  { armijoC1 := c1, dphiThresh := 1 / 10000000000000, alphaMin := amin, maxNumSteps := 20, interp := i,
    contractionMin := 1 / 2, contractionMax := 4 / 5 }

example : GoodLS (Demo.lsOpts .cubic (1 / 10000) (1 / 1000000)) := by
  constructor <;> norm_num [Demo.lsOpts]

/-- singular systems give NaN -/
def Demo.singNaN : LSSample ℚ → LSSample ℚ → ℚ → ℚ → Option ℚ := fun _ _ _ _ => none

example : InRange Demo.singNaN := by intro _ _ _ _ _ _ h; simp [Demo.singNaN] at h

/-- C29 fails when every trial throws: `run` returns 0, with `alpha_min` as step, although `phi` has no value there
(default options). -/
theorem C29_value_false_all_throw : ∃ r, lsRun (K := ℚ) id Demo.singNaN (fun _ => none)
    (Demo.lsOpts .bisection (1 / 10000) (1 / 1000000)) 5 (-1) 30 = some r ∧ r.ret = 0 ∧
      r.alpha = 1 / 1000000 ∧ r.trace0.length = 20 := by
  refine exists_of_check _ _ ?_; decide +kernel

/-- C29 and C30 fail with a trial that throws in the main loop: `phi(1) = -0.3` fails the test, the halved step
throws, then the old value -0.3 is tested against the halved step and accepted; the output step is 1/2, where `phi`
has no value. -/
theorem C30_armijo_false : ∃ r, lsRun (K := ℚ) id Demo.singNaN (fun a => if a = 1 then some (-3 / 10) else none)
      (Demo.lsOpts .bisection (1 / 2) (1 / 1000000)) 0 (-1) 5 = some r ∧
    r.alpha = 1 / 2 ∧ r.ret = -3 / 10 ∧ (fun a : ℚ => if a = 1 then some (-3 / 10 : ℚ) else none) r.alpha = none ∧
    r.trace.length ≠ 20 := by
  refine exists_of_check _ _ ?_; decide +kernel

/-- C29 fails for a merit function that never throws, with cubic interpolation: the interpolation gives NaN, the
fallback step 1/2 is below `alpha_min = 3/5`, `phi(1/2)` is returned with step 3/5. Here
`phi(a) = max(-a, -0.3 - a/2)`, with value 0 and slope -1 at 0. -/
theorem C29_value_false_cubic : ∃ r, lsRun (K := ℚ) id Demo.singNaN (fun a => some (max (-a) (-3 / 10 - a / 2)))
      (Demo.lsOpts .cubic (9 / 10) (3 / 5)) 0 (-1) 5 = some r ∧
    r.alpha = 3 / 5 ∧ r.ret = -1 / 2 ∧ max (-r.alpha) (-3 / 10 - r.alpha / 2) = -3 / 5 := by
  refine exists_of_check _ _ ?_; decide +kernel

/-- A run meeting the hypotheses of `C29_value_partial` and `C30_armijo_partial`: `phi` throws above 1/2, two
quadratic steps are needed. -/
example : ∃ r, lsRun (K := ℚ) id Demo.singNaN (fun a => if 1 / 2 < a then none else some (20 * a * a - a))
      (Demo.lsOpts .quadratic (1 / 10000) (1 / 1000000)) 0 (-1) 5 = some r ∧
    r.trace.length = 4 ∧ 0 < r.alpha ∧ r.alpha < 1 / 10 := by
  refine exists_of_check _ _ ?_; decide +kernel

end ProxNLP
