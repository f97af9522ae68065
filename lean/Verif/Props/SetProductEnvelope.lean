import Verif.Props.SetProduct
import Mathlib.Algebra.BigOperators.Fin
import Mathlib.Algebra.BigOperators.Intervals
import Mathlib.Algebra.BigOperators.Ring.Finset

/-!
C07, continued: the Moreau envelope of a product of constraint sets.
-/

set_option linter.unusedSectionVars false

namespace ProxNLP

open Spec

variable {K : Type} [Field K] [LinearOrder K] [IsStrictOrderedRing K]

theorem sum_by_blocks (sizes : List ℕ) (F : ℕ → K) : ∀ m ≤ sizes.length,
    ∑ k ∈ Finset.range (offset sizes m), F k = ∑ i ∈ Finset.range m, ∑ j ∈ Finset.range (sizes.getD i 0), F (offset sizes i + j) := by
  intro m
  induction m with
  | zero => intro _; simp [offset]
  | succ m ih =>
    intro hm
    rw [Finset.sum_range_succ, ← ih (by omega)]
    have e : offset sizes (m + 1) = offset sizes m + sizes.getD m 0 := by
      unfold offset
      rw [List.take_add_one, List.sum_append, List.getElem?_eq_getElem (by omega), List.getD_eq_getElem?_getD,
        List.getElem?_eq_getElem (by omega)]
      simp
    rw [e, Finset.sum_range_add]

/-- C07: the Moreau envelope of a product whose components carry the same parameter is the sum of the envelopes of the components on their
blocks, and the normal part it leaves in the output is the stack of theirs. -/
theorem C07_product_envelope (comps : List (VSet K)) (sizes : List ℕ) (p : VSet K) (mu : K)
    (hp : VSet.product (comps.map fun c => c.setProxParameter mu) sizes = .ok p) (z out nrm : Fin sizes.sum → K) (vals : ℕ → K)
    (hv : ∀ (i size : ℕ) c, comps[i]? = some c → sizes[i]? = some size →
      ∃ zb ob nb : Fin size → K, IsBlock z (offset sizes i) zb ∧ IsBlock out (offset sizes i) ob ∧ IsBlock nrm (offset sizes i) nb ∧
        (c.setProxParameter mu).computeMoreauEnvelope zb ob = some (vals i, nb)) :
    (p.setProxParameter mu).computeMoreauEnvelope z out = some (∑ i ∈ Finset.range comps.length, vals i, nrm) := by
  have hlen : comps.length = sizes.length := by
    unfold VSet.product at hp
    split_ifs at hp with hl
    push Not at hl
    simpa using hl
  have hops := C08_product_ignores_parameter _ _ _ hp mu
  -- what the envelope of a component consists of
  have hsplit : ∀ (i size : ℕ) c, comps[i]? = some c → sizes[i]? = some size →
      ∃ zb ob nb : Fin size → K, IsBlock z (offset sizes i) zb ∧ IsBlock out (offset sizes i) ob ∧ IsBlock nrm (offset sizes i) nb ∧
        (c.setProxParameter mu).ops.normalConeProjection size zb ob = some nb ∧
        (c.setProxParameter mu).ops.evaluate size (fun j => zb j - nb j) = some (vals i - (1 / 2) * (1 / mu) * ∑ j, nb j ^ 2) := by
    intro i size c hc hs
    obtain ⟨zb, ob, nb, h1, h2, h3, h4⟩ := hv i size c hc hs
    refine ⟨zb, ob, nb, h1, h2, h3, ?_⟩
    unfold VSet.computeMoreauEnvelope at h4
    cases hn : (c.setProxParameter mu).ops.normalConeProjection size zb ob with
    | none => simp [hn] at h4
    | some nb' =>
      have hmi : (c.setProxParameter mu).muInv = some (1 / mu) := rfl
      cases he : (c.setProxParameter mu).ops.evaluate size (fun j => zb j - nb' j) with
      | none => simp [hn, hmi, he] at h4
      | some e =>
        simp only [hn, hmi, he, Option.bind_eq_bind, Option.bind_some, Option.pure_def, Option.some.injEq, Prod.mk.injEq] at h4
        obtain ⟨h5, rfl⟩ := h4
        refine ⟨rfl, ?_⟩
        rw [he, ← h5]
        ring_nf
  have hnorm : (p.setProxParameter mu).ops.normalConeProjection sizes.sum z out = some nrm := by
    rw [hops]
    refine ((C07_product_blockwise _ _ _ hp).2.1 z out nrm).2 fun i size op hop hs => ?_
    simp only [List.map_map, List.getElem?_map, Option.map_eq_some_iff] at hop
    obtain ⟨c, hc, rfl⟩ := hop
    obtain ⟨zb, ob, nb, h1, h2, h3, h4, -⟩ := hsplit i size c hc hs
    exact ⟨zb, ob, nb, h1, h2, h3, h4⟩
  set sq : ℕ → K := fun k => if h : k < sizes.sum then nrm ⟨k, h⟩ ^ 2 else 0 with hsq
  have hblock : ∀ (i size : ℕ), sizes[i]? = some size → ∀ nb : Fin size → K, IsBlock nrm (offset sizes i) nb →
      ∑ j ∈ Finset.range (sizes.getD i 0), sq (offset sizes i + j) = ∑ j, nb j ^ 2 := by
    intro i size hs nb hb
    rw [List.getD_eq_getElem?_getD, hs, Option.getD_some, Finset.sum_range]
    refine Finset.sum_congr rfl fun j _ => ?_
    obtain ⟨h, e⟩ := hb j
    rw [hsq]
    simp only
    rw [dif_pos h, e]
  have heval : (p.setProxParameter mu).ops.evaluate sizes.sum (fun i => z i - nrm i) =
      some (∑ i ∈ Finset.range comps.length,
        (vals i - (1 / 2) * (1 / mu) * ∑ j ∈ Finset.range (sizes.getD i 0), sq (offset sizes i + j))) := by
    rw [hops]
    have := C07_product_evaluate _ _ _ hp (fun i => z i - nrm i)
      (fun i => vals i - (1 / 2) * (1 / mu) * ∑ j ∈ Finset.range (sizes.getD i 0), sq (offset sizes i + j)) (fun i size c hc hs => ?_)
    · rw [List.length_map] at this
      exact this
    · simp only [List.getElem?_map, Option.map_eq_some_iff] at hc
      obtain ⟨c, hc, rfl⟩ := hc
      obtain ⟨zb, ob, nb, h1, h2, h3, h4, h5⟩ := hsplit i size c hc hs
      refine ⟨fun j => zb j - nb j, fun j => ?_, ?_⟩
      · obtain ⟨g1, e1⟩ := h1 j
        obtain ⟨g2, e2⟩ := h3 j
        exact ⟨g1, by simp only [e1, e2]⟩
      · rw [h5, hblock i size hs nb h3]
  have htotal : ∑ i, nrm i ^ 2 = ∑ i ∈ Finset.range comps.length, ∑ j ∈ Finset.range (sizes.getD i 0), sq (offset sizes i + j) := by
    rw [hlen, ← sum_by_blocks sizes sq sizes.length le_rfl]
    have e : offset sizes sizes.length = sizes.sum := by simp [offset]
    rw [e, Finset.sum_range]
    refine Finset.sum_congr rfl fun i _ => ?_
    rw [hsq]
    simp only
    rw [dif_pos i.2]
  have hmi : (p.setProxParameter mu).muInv = some (1 / mu) := rfl
  unfold VSet.computeMoreauEnvelope
  rw [hnorm]
  simp only [hmi, heval, Option.bind_eq_bind, Option.bind_some, Option.pure_def, Option.some.injEq, Prod.mk.injEq, and_true]
  rw [Finset.sum_sub_distrib, ← Finset.mul_sum, htotal]
  ring

/-- envelope of the product of a negative orthant and an equality with `mu = 1/2`: `2^2 + 3^2` for the violations 2 and 3 -/
example : ∃ p, VSet.product ([VSet.leaf (.negOrthant : LeafSet ℚ), VSet.leaf .equality].map fun c => c.setProxParameter (1 / 2)) [2, 1] = .ok p ∧
    (p.setProxParameter (1 / 2)).computeMoreauEnvelope ![2, -1, 3] ![0, 0, 0] = some (13, ![2, 0, 3]) := by
  refine ⟨_, rfl, ?_⟩
  have := C07_product_envelope (K := ℚ) [VSet.leaf .negOrthant, VSet.leaf .equality] [2, 1] _ (1 / 2) rfl ![2, -1, 3] ![0, 0, 0] ![2, 0, 3]
    (fun i => if i = 0 then 4 else 9) (fun i size c hc hs => ?_)
  · refine Eq.trans this (congrArg (fun v => some (v, ![2, 0, 3])) ?_)
    decide +kernel
  · rcases i with _ | _ | i
    · simp at hc hs; subst hc hs
      refine ⟨![2, -1], ![0, 0], ![2, 0], ?_, ?_, ?_, ?_⟩
      · intro j; fin_cases j <;> exact ⟨by decide, rfl⟩
      · intro j; fin_cases j <;> exact ⟨by decide, rfl⟩
      · intro j; fin_cases j <;> exact ⟨by decide, rfl⟩
      · decide +kernel
    · simp at hc hs; subst hc hs
      refine ⟨![3], ![0], ![3], ?_, ?_, ?_, ?_⟩
      · intro j; fin_cases j; exact ⟨by decide, rfl⟩
      · intro j; fin_cases j; exact ⟨by decide, rfl⟩
      · intro j; fin_cases j; exact ⟨by decide, rfl⟩
      · decide +kernel
    · simp at hc

end ProxNLP
