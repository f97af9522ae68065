import Verif.Lemmas.Blocks
import Verif.Lemmas.Sets
import Verif.Spec.Blocks
import Mathlib.Data.Fin.VecNotation
import Mathlib.Tactic.FinCases
import Mathlib.Tactic.NormNum

/-!
Property theorems C07 and C08 about `ConstraintSetProduct`.
-/

set_option linter.unusedSectionVars false
namespace ProxNLP

open Spec

/-- The block operation `op` acts on vectors of size `sizes.sum` exactly by running `ops[i]` on block `i`. -/
def Spec.Blockwise {K α : Type} (sizes : List ℕ) (ops : List (BlockOp K α)) (op : BlockOp K α) : Prop :=
  ∀ (z : Fin sizes.sum → K) (out out' : Fin sizes.sum → α),
    op sizes.sum z out = some out' ↔
      ∀ (i size : ℕ) (opi : BlockOp K α), ops[i]? = some opi → sizes[i]? = some size →
        ∃ zb ob ob', IsBlock z (offset sizes i) zb ∧ IsBlock out (offset sizes i) ob ∧
          IsBlock out' (offset sizes i) ob' ∧ opi size zb ob = some ob'

theorem readBlock_some_iff {α : Type*} {n size : ℕ} (z : Fin n → α) (off : ℕ) (h : off + size ≤ n)
    (b : Fin size → α) : readBlock z off size = some b ↔ IsBlock z off b := by
  rw [readBlock_eq_some _ _ _ h, Option.some.injEq, funext_iff]
  exact forall_congr' fun j => ⟨fun e => ⟨by omega, e⟩, fun ⟨_, e⟩ => e⟩

theorem blockLoop_blockwise {K α : Type} (sizes : List ℕ) (ops : List (BlockOp K α))
    (hlen : ops.length = sizes.length) : Blockwise sizes ops (blockLoop ops sizes) := by
  intro z out out'
  rw [blockLoop_eq_some_iff ops sizes _ hlen le_rfl]
  have htail : (∀ k : Fin sizes.sum, sizes.sum ≤ k.1 → out' k = out k) := fun k hk => absurd k.2 (by omega)
  refine ⟨fun h i size op h1 h2 => ?_, fun h => ⟨fun i size op h1 h2 => ?_, htail⟩⟩
  · obtain ⟨zb, ob, ob', e1, e2, e3, e4⟩ := h.1 i size op h1 h2
    have hle := block_end_le_sum _ _ _ h2
    rw [readBlock_some_iff _ _ hle] at e1 e2 e3
    rw [startIdx_eq] at e1 e2 e3
    exact ⟨zb, ob, ob', e1, e2, e3, e4⟩
  · obtain ⟨zb, ob, ob', e1, e2, e3, e4⟩ := h i size op h1 h2
    have hle := block_end_le_sum _ _ _ h2
    unfold offset at e1 e2 e3
    rw [← startIdx_eq, ← readBlock_some_iff _ _ hle] at e1 e2 e3
    exact ⟨zb, ob, ob', e1, e2, e3, e4⟩

variable {K : Type} [Field K] [LinearOrder K] [IsStrictOrderedRing K]

/-! ## C07 -/

/-- C07: every vector/matrix operation of a successfully constructed product acts block by block, on
stacked vectors whose size is the sum of the block sizes.  (Components are arbitrary set objects, so nested
products are covered.) -/
theorem C07_product_blockwise (comps : List (VSet K)) (sizes : List ℕ) (p : VSet K)
    (hp : VSet.product comps sizes = .ok p) :
    Blockwise sizes (comps.map fun c => c.ops.projection) p.ops.projection ∧
    Blockwise sizes (comps.map fun c => c.ops.normalConeProjection) p.ops.normalConeProjection ∧
    (∀ m, Blockwise sizes (comps.map fun c => c.ops.applyProjectionJacobian m)
      (p.ops.applyProjectionJacobian m)) ∧
    (∀ m, Blockwise sizes (comps.map fun c => c.ops.applyNormalConeProjectionJacobian m)
      (p.ops.applyNormalConeProjectionJacobian m)) ∧
    Blockwise sizes (comps.map fun c => c.ops.computeActiveSet) p.ops.computeActiveSet := by
  unfold VSet.product at hp
  split_ifs at hp with hl
  push Not at hl
  cases hp
  refine ⟨?_, ?_, fun m => ?_, fun m => ?_, ?_⟩ <;>
    exact blockLoop_blockwise _ _ (by simpa using hl)

/-- C07: the blocks are disjoint and cover the stacked vector. -/
theorem C07_blocks_partition (sizes : List ℕ) (k : ℕ) (hk : k < sizes.sum) :
    ∃! i, ∃ s, sizes[i]? = some s ∧ offset sizes i ≤ k ∧ k < offset sizes i + s := by
  obtain ⟨i, s, h1, h2, h3⟩ := exists_block sizes k hk
  refine ⟨i, ⟨s, h1, by rwa [startIdx_eq] at h2, by rwa [startIdx_eq] at h3⟩, ?_⟩
  rintro j ⟨s', h1', h2', h3'⟩
  unfold offset at h2' h3'
  rw [← startIdx_eq] at h2' h3'
  exact block_unique sizes k j i s' s h1' h1 h2' h3' h2 h3

/-- C07: a wrong number of block sizes is rejected, and only that. -/
theorem C07_constructor_rejects (comps : List (VSet K)) (sizes : List ℕ) :
    (∃ e, VSet.product comps sizes = .error e) ↔ comps.length ≠ sizes.length := by
  unfold VSet.product
  split_ifs with h <;> simp [h]

theorem prodEvaluate_aux (comps : List (VSet K)) (sizes : List ℕ) (z : Fin sizes.sum → K)
    (hl : comps.length = sizes.length) (vals : ℕ → K)
    (hv : ∀ (i size : ℕ) c, comps[i]? = some c → sizes[i]? = some size →
      ∃ zb, IsBlock z (offset sizes i) zb ∧ c.ops.evaluate size zb = some (vals i)) :
    ∀ m ≤ comps.length, (List.range m).foldlM (m := Option) (fun res i => do
      let c ← comps[i]?
      let size ← sizes[i]?
      let zblock ← readBlock z (startIdx sizes i) size
      let v ← c.ops.evaluate size zblock
      pure (res + v)) 0 = some (∑ i ∈ Finset.range m, vals i) := by
  intro m
  induction m with
  | zero => intro _; simp
  | succ m ih =>
    intro hm
    have hc : comps[m]? = some comps[m] := List.getElem?_eq_getElem _
    have hs : sizes[m]? = some (sizes[m]'(by omega)) := List.getElem?_eq_getElem _
    obtain ⟨zb, h1, h2⟩ := hv m _ _ hc hs
    have h3 : readBlock z (startIdx sizes m) (sizes[m]'(by omega)) = some zb :=
      (readBlock_some_iff _ _ (block_end_le_sum _ _ _ hs) _).2 (by rw [startIdx_eq]; exact h1)
    rw [List.range_succ, List.foldlM_append, ih (by omega), Finset.sum_range_succ]
    simp [hc, hs, h3, h2]

/-- C07: the value of a product is the sum of the component values on their blocks. -/
theorem C07_product_evaluate (comps : List (VSet K)) (sizes : List ℕ) (p : VSet K)
    (hp : VSet.product comps sizes = .ok p) (z : Fin sizes.sum → K) (vals : ℕ → K)
    (hv : ∀ (i size : ℕ) c, comps[i]? = some c → sizes[i]? = some size →
      ∃ zb, IsBlock z (offset sizes i) zb ∧ c.ops.evaluate size zb = some (vals i)) :
    p.ops.evaluate sizes.sum z = some (∑ i ∈ Finset.range comps.length, vals i) := by
  unfold VSet.product at hp
  split_ifs at hp with hl
  push Not at hl
  cases hp
  exact prodEvaluate_aux comps sizes z hl vals hv _ le_rfl

/-- C07: projecting in place (input and output the same buffer, as the solver does) gives the same result. -/
theorem C07_product_in_place (comps : List (VSet K)) (sizes : List ℕ) (p : VSet K)
    (hp : VSet.product comps sizes = .ok p) (z : Fin sizes.sum → K) :
    blockLoopInPlace (comps.map fun c => c.ops.projection) sizes sizes.sum z =
      p.ops.projection sizes.sum z z := by
  unfold VSet.product at hp
  split_ifs at hp with hl
  push Not at hl
  cases hp
  exact blockInPlace_eq _ _ _ (by simpa using hl) le_rfl z

/-- non-vacuity: product of a negative orthant (size 2) and an equality (size 1). -/
example : ∃ p, VSet.product [VSet.leaf (.negOrthant : LeafSet ℚ), VSet.leaf .equality] [2, 1] = .ok p ∧
    p.ops.projection 3 ![1, -1, 5] ![0, 0, 0] = some ![0, -1, 0] := by
  refine ⟨_, rfl, ?_⟩
  have := (C07_product_blockwise (K := ℚ) _ _ _
    (rfl : VSet.product [VSet.leaf (.negOrthant : LeafSet ℚ), VSet.leaf .equality] [2, 1] = .ok _)).1
  refine (this ![1, -1, 5] ![0, 0, 0] ![0, -1, 0]).2 ?_
  intro i size op h1 h2
  rcases i with _ | _ | i
  · simp at h1 h2; subst h1 h2
    refine ⟨![1, -1], ![0, 0], ![0, -1], ?_, ?_, ?_, ?_⟩
    · intro j; fin_cases j <;> exact ⟨by decide, rfl⟩
    · intro j; fin_cases j <;> exact ⟨by decide, rfl⟩
    · intro j; fin_cases j <;> exact ⟨by decide, rfl⟩
    · simp only [VSet.ops, VSet.leaf, LeafSet.ops, Option.some.injEq]
      funext j; fin_cases j <;> norm_num [LeafSet.projection, LeafSet.projAt]
  · simp at h1 h2; subst h1 h2
    refine ⟨![5], ![0], ![0], ?_, ?_, ?_, ?_⟩
    · intro j; fin_cases j; exact ⟨by decide, rfl⟩
    · intro j; fin_cases j; exact ⟨by decide, rfl⟩
    · intro j; fin_cases j; exact ⟨by decide, rfl⟩
    · simp only [VSet.ops, VSet.leaf, LeafSet.ops, Option.some.injEq]
      funext j; fin_cases j; norm_num [LeafSet.projection, LeafSet.projAt]
  · simp at h1

/-! ## C08 -/

/-- The full claim C08 for one product: after `setProxParameter mu` its operations are those of the product
whose components have all been given `mu`. -/
def Spec.ParameterReachesComponents (comps : List (VSet K)) (sizes : List ℕ) (mu : K) : Prop :=
  ∀ p q, VSet.product comps sizes = .ok p →
    VSet.product (comps.map fun c => c.setProxParameter mu) sizes = .ok q →
    (p.setProxParameter mu).ops = (q.setProxParameter mu).ops

/-- C08 is false of the code: a product holding an L1 penalty keeps using the component's initial
parameter 0 (identity) after `setProxParameter(1)`, where the component itself would soft-threshold. -/
theorem C08_parameter_reaches_components_false :
    ¬ ∀ (comps : List (VSet ℚ)) (sizes : List ℕ) (mu : ℚ), ParameterReachesComponents comps sizes mu := by
  intro h
  have h1 := h [VSet.leaf .l1] [1] 1 _ _ rfl rfl
  have h2 := congrArg (fun o => SetOps.projection o 1 ![2] ![0]) h1
  have e : ∀ mu : ℚ, (prodOps [{ (VSet.leaf (.l1 : LeafSet ℚ)) with mu := mu }] [1]).projection 1 ![2] ![0]
      = some ![signK 2 * max (|2| - mu) 0] := by
    intro mu
    refine ((blockLoop_blockwise [1] [(LeafSet.ops (.l1 : LeafSet ℚ) mu).projection] rfl) ![2] ![0] _).2 ?_
    intro i size op h1 h2
    rcases i with _ | i
    · simp at h1 h2; subst h1 h2
      refine ⟨![2], ![0], _, ?_, ?_, ?_, rfl⟩
      · intro j; fin_cases j; exact ⟨by decide, rfl⟩
      · intro j; fin_cases j; exact ⟨by decide, rfl⟩
      · intro j; fin_cases j; exact ⟨by decide, rfl⟩
    · simp at h1
  have e0 := e 0
  have e1 := e 1
  have h3 : (prodOps [{ (VSet.leaf (.l1 : LeafSet ℚ)) with mu := 0 }] [1]).projection 1 ![2] ![0]
      = (prodOps [{ (VSet.leaf (.l1 : LeafSet ℚ)) with mu := 1 }] [1]).projection 1 ![2] ![0] := h2
  rw [e0, e1] at h3
  have h4 := congrFun (Option.some.inj h3) 0
  norm_num [signK] at h4

/-- C08, exact behaviour: `setProxParameter` on a product changes none of its operations. -/
theorem C08_product_ignores_parameter (comps : List (VSet K)) (sizes : List ℕ) (p : VSet K)
    (hp : VSet.product comps sizes = .ok p) (mu : K) : (p.setProxParameter mu).ops = p.ops := by
  unfold VSet.product at hp
  split_ifs at hp with hl
  cases hp; rfl

/-- C08, the part that holds: when no component's operations depend on the parameter (all the indicator
sets, and products of such), the parameter trivially "reaches" them.  Missing: components whose operator
depends on the parameter (L1). -/
theorem C08_parameter_reaches_components_partial (comps : List (VSet K)) (sizes : List ℕ) (mu : K)
    (h : ∀ c ∈ comps, ∀ a b, c.vt a = c.vt b) : ParameterReachesComponents comps sizes mu := by
  intro p q hp hq
  rw [C08_product_ignores_parameter _ _ _ hp, C08_product_ignores_parameter _ _ _ hq]
  unfold VSet.product at hp hq
  split_ifs at hp hq with hl hl'
  cases hp; cases hq
  have e : ∀ c ∈ comps, (c.setProxParameter mu).ops = c.ops := fun c hc => h c hc _ _
  simp only [VSet.ops, prodOps, List.map_map]
  have m : ∀ {β : Type} (g : SetOps K → β), comps.map ((fun c : VSet K => g c.ops) ∘ fun c => c.setProxParameter mu)
      = comps.map fun c => g c.ops := fun g =>
    List.map_congr_left fun c hc => by simp only [Function.comp, e c hc]
  have m1 := @m
  simp only [VSet.ops] at m1
  have hev : prodEvaluate (comps.map fun c => c.setProxParameter mu) sizes = prodEvaluate comps sizes := by
    funext n z
    unfold prodEvaluate
    rw [List.length_map]
    congr 1
    funext res i
    rw [List.getElem?_map]
    cases hc : comps[i]? with
    | none => rfl
    | some c =>
      have := e c (List.mem_of_getElem? hc)
      simp only [Option.map_some, Option.bind_eq_bind, Option.bind_some, this]
  rw [hev, m1 (fun o => o.projection), m1 (fun o => o.normalConeProjection), m1 (fun o => o.computeActiveSet)]
  congr 1
  · funext k; rw [m1 (fun o => o.applyProjectionJacobian k)]
  · funext k; rw [m1 (fun o => o.applyNormalConeProjectionJacobian k)]

/-- the hypothesis of the partial theorem is met by all indicator sets -/
example (s : LeafSet ℚ) (hs : s ≠ .l1) (a b : ℚ) : (VSet.leaf s).vt a = (VSet.leaf s).vt b := by
  cases s <;> first | rfl | exact absurd rfl hs

end ProxNLP
