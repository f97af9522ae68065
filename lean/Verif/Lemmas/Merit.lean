import Verif.Props.SetsDeriv
import Verif.Model.Merit
import Mathlib.Analysis.Calculus.Deriv.Prod
import Mathlib.Analysis.Calculus.Deriv.Pow
import Mathlib.Analysis.Calculus.Deriv.Slope

/-! Helper lemmas for the merit function: scalar Moreau envelope and its stacked version. -/

set_option linter.unusedSectionVars false
namespace ProxNLP

open Spec

/-- a leaf set whose index 0 is index `k` of `s` -/
def LeafSet.shiftIdx {K : Type*} (s : LeafSet K) (k : ℕ) : LeafSet K :=
  match s with
  | .box lo hi => .box (fun i => lo (i + k)) (fun i => hi (i + k))
  | .equality => .equality
  | .negOrthant => .negOrthant
  | .l1 => .l1

theorem shiftIdx_normalAt {K : Type*} [Field K] [LinearOrder K] (s : LeafSet K) (k : ℕ) (mu z : K) :
    (s.shiftIdx k).normalAt mu 0 z = s.normalAt mu k z := by
  cases s <;> simp [LeafSet.shiftIdx, LeafSet.normalAt]

/-- scalar envelope of one coordinate -/
noncomputable def envAt (s : LeafSet ℝ) (mu : ℝ) (k : ℕ) (z : ℝ) : ℝ :=
  (match s with | .l1 => |z - s.normalAt mu k z| | _ => 0) + (1 / 2) * (1 / mu) * s.normalAt mu k z ^ 2

theorem hasDerivAt_envAt (s : LeafSet ℝ) (mu : ℝ) (hmu : 0 < mu) (k : ℕ) (hv : ValidAt s k) (z : ℝ) :
    HasDerivAt (envAt s mu k) (s.normalAt mu k z / mu) z := by
  have hV : Valid (s.shiftIdx k) 1 := by
    cases s <;> simp [LeafSet.shiftIdx, Valid, ValidAt] at *
    exact hv
  obtain ⟨E, h1, h2⟩ := C05_moreau_envelope_gradient (s.shiftIdx k) hV (SetObj.new (s.shiftIdx k)) rfl mu hmu
  have e : ∀ y : ℝ, envAt s mu k y = E (fun _ => y) := by
    intro y
    have := h1 (fun _ => y)
    simp only [SetObj.computeMoreauEnvelope, SetObj.evaluateMoreauEnvelope, SetObj.setProxParameter, SetObj.new,
      Option.map_some, Option.some.injEq, Prod.mk.injEq, and_true] at this
    rw [← this]
    simp only [LeafSet.normalConeProjection, Finset.univ_unique, Finset.sum_singleton, Fin.default_eq_zero,
      Fin.isValue, Fin.val_zero, shiftIdx_normalAt, envAt]
    cases s <;> simp [LeafSet.shiftIdx, LeafSet.evaluate, LeafSet.normalAt]
  have h3 : HasDerivAt (fun y : ℝ => (fun _ : Fin 1 => y)) (fun _ => 1) z :=
    hasDerivAt_pi.2 fun _ => hasDerivAt_id z
  have h4 := (h2 (fun _ => z)).comp_hasDerivAt z h3
  have e2 : envAt s mu k = E ∘ fun y : ℝ => (fun _ : Fin 1 => y) := by funext y; exact e y
  rw [e2]
  refine h4.congr_deriv ?_
  rw [dotL_apply]
  simp [LeafSet.normalConeProjection, shiftIdx_normalAt]

/-- the stacked envelope is the sum of scalar envelopes -/
theorem stacked_env {m : ℕ} (leaf : Fin m → LeafSet ℝ × ℕ) (mu : ℝ) (z : Fin m → ℝ) :
    (StackedSet.ofLeaves leaf).evaluate mu (fun i => z i - (StackedSet.ofLeaves leaf).normal mu z i)
      + (1 / 2) * (1 / mu) * ∑ i, (StackedSet.ofLeaves leaf).normal mu z i ^ 2
      = ∑ i, envAt (leaf i).1 mu (leaf i).2 (z i) := by
  simp only [StackedSet.ofLeaves, envAt]
  rw [Finset.sum_add_distrib, Finset.mul_sum]
  congr 1
  refine Finset.sum_congr rfl fun i _ => ?_
  generalize (leaf i).1 = s
  cases s <;> rfl

theorem hasDerivAt_normalAt (s : LeafSet ℝ) (mu : ℝ) (hmu : 0 ≤ mu) (k : ℕ) (hv : ValidAt s k) (z : ℝ)
    (hk : ¬ Kink s mu k z) :
    HasDerivAt (s.normalAt mu k) (if s.activeAt mu k z then 1 else 0) z := by
  have hV : Valid (s.shiftIdx k) 1 := by
    cases s <;> simp [LeafSet.shiftIdx, Valid, ValidAt] at *
    exact hv
  have hk' : ¬ Kink (s.shiftIdx k) mu ((0 : Fin 1) : ℕ) z := by
    cases s <;> simp_all [LeafSet.shiftIdx, Kink]
  have h := (hasDerivAt_id z).sub (hasDerivAt_projAt (s.shiftIdx k) hV mu hmu 0 z hk')
  have e : s.normalAt mu k = id - fun x => (s.shiftIdx k).projAt mu ((0 : Fin 1) : ℕ) x := by
    funext y
    cases s <;> simp [LeafSet.shiftIdx, LeafSet.normalAt, LeafSet.projAt]
    rcases le_total y 0 with h | h <;> simp [h]
  have ha : (s.shiftIdx k).activeAt mu ((0 : Fin 1) : ℕ) z = s.activeAt mu k z := by
    cases s <;> simp [LeafSet.shiftIdx, LeafSet.activeAt]
  rw [e]
  refine h.congr_deriv ?_
  rw [ha]
  split_ifs <;> simp

/-- derivative at 0 of `a * g a` for continuous `g` -/
theorem hasDerivAt_mul_of_continuousAt {g : ℝ → ℝ} (hg : ContinuousAt g 0) :
    HasDerivAt (fun a => g a * a) (g 0) 0 := by
  rw [hasDerivAt_iff_tendsto_slope]
  refine (hg.tendsto.mono_left nhdsWithin_le_nhds).congr' ?_
  filter_upwards [self_mem_nhdsWithin] with a ha
  have : a ≠ 0 := ha
  simp [slope_def_field, this]

end ProxNLP
