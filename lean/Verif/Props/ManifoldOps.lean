import Verif.Props.Manifold

/-! Property theorems for C44 (Jacobians), C45-C49 and C74: product Jacobians, split/merge, normalisation, operators,
tangent bundles, transport. -/

set_option linter.unusedSectionVars false
namespace ProxNLP

open Spec

variable {K : Type} [Field K]

/-! ### Concrete data -/
namespace Demo

/-- A one-dimensional manifold whose only normalized point is `[1]`. -/
def picky : Manifold ℚ := { ProxNLP.vectorSpace 1 with isNormalized := fun x => .ok (decide (x = [1])) }

/-- `R^1 × R^2` -/
def r12 : List (Space ℚ) := [Spec.vectorSpace 1, Spec.vectorSpace 2]

end Demo

/-- C44 is not vacuous: the product `R^1 × (R^1 × R^2)` is lawful, its points are all vectors of size 4, and it integrates
as expected. -/
example : Lawful (product [Spec.vectorSpace 1, product Demo.r12] : Space ℚ) ∧
    (product [Spec.vectorSpace 1, product Demo.r12] : Space ℚ).valid [1, 2, 3, 4] ∧
    (product [Spec.vectorSpace 1, product Demo.r12] : Space ℚ).M.integrate [1, 2, 3, 4] [1, 1, 0, 5] [0, 0, 0, 0] =
      .ok [2, 3, 3, 9] := by
  refine ⟨C44_product_laws _ ?_, ⟨[[1], [2, 3, 4]], ?_, rfl⟩, by decide +kernel⟩
  · intro S hS
    simp only [List.mem_cons, List.not_mem_nil, or_false] at hS
    rcases hS with rfl | rfl
    · exact C43_vector_space_laws 1
    · refine C44_product_laws _ ?_
      intro S hS
      simp only [Demo.r12, List.mem_cons, List.not_mem_nil, or_false] at hS
      rcases hS with rfl | rfl <;> exact C43_vector_space_laws _
  · refine .cons rfl (.cons ⟨[[2], [3, 4]], .cons rfl (.cons rfl .nil), rfl⟩ .nil)

/-! ### C44: Jacobians -/

/-- A component with input blocks and a Jacobian block -/
structure JBlk (K : Type) where
  M : Manifold K
  x : List K
  v : List K
  B : ℕ → ℕ → K

theorem blockDiag_loop_step (n c : ℕ) (B J : ℕ → ℕ → K) (rest : List (ℕ × (ℕ → ℕ → K)))
    (hJ : ∀ i j, c ≤ i ∨ c ≤ j → J i j = 0) (i j : ℕ) :
    (if i < c + n ∧ j < c + n then setBlock J c n B i j
      else if c + n ≤ i ∧ c + n ≤ j then blockDiag rest (i - (c + n)) (j - (c + n)) else 0) =
    (if i < c ∧ j < c then J i j else if c ≤ i ∧ c ≤ j then blockDiag ((n, B) :: rest) (i - c) (j - c) else 0) := by
  simp only [setBlock, blockDiag]
  by_cases h1 : i < c + n ∧ j < c + n
  · rw [if_pos h1]
    by_cases h2 : i < c ∧ j < c
    · rw [if_neg (by omega), if_pos h2]
    · rw [if_neg h2]
      by_cases h3 : c ≤ i ∧ c ≤ j
      · rw [if_pos (by omega), if_pos h3, if_pos (by omega)]
      · rw [if_neg (by omega), if_neg h3]
        exact hJ i j (by omega)
  · rw [if_neg h1]
    by_cases h3 : c ≤ i ∧ c ≤ j
    · rw [if_neg (c := i < c ∧ j < c) (by omega), if_pos h3, if_neg (c := i - c < n ∧ j - c < n) (by omega)]
      by_cases h4 : c + n ≤ i ∧ c + n ≤ j
      · rw [if_pos h4, if_pos (by omega), Nat.sub_sub, Nat.sub_sub]
      · rw [if_neg h4, if_neg (by omega)]
    · rw [if_neg (c := c + n ≤ i ∧ c + n ≤ j) (by omega), if_neg (by omega), if_neg h3]

theorem prodJintegrateLoop_spec (arg : ℤ) (ts : List (JBlk K)) (xp vp xq vq : List K) (J : ℕ → ℕ → K)
    (h : ∀ t ∈ ts, t.x.length = t.M.nx ∧ t.v.length = t.M.ndx ∧ t.M.Jintegrate t.x t.v (fun _ _ => 0) arg = .ok t.B)
    (hJ : ∀ i j, vp.length ≤ i ∨ vp.length ≤ j → J i j = 0) :
    prodJintegrateLoop arg (ts.map (·.M)) (xp ++ ((ts.map (·.x)).flatten ++ xq)) (vp ++ ((ts.map (·.v)).flatten ++ vq)) xp.length
      vp.length J = .ok fun i j => if i < vp.length ∧ j < vp.length then J i j
        else if vp.length ≤ i ∧ vp.length ≤ j then
          blockDiag (ts.map fun t => (t.M.ndx, t.B)) (i - vp.length) (j - vp.length) else 0 := by
  induction ts generalizing xp vp J with
  | nil =>
    simp only [List.map_nil, prodJintegrateLoop, blockDiag, ite_self]
    congr 1
    funext i j
    by_cases h1 : i < vp.length ∧ j < vp.length
    · rw [if_pos h1]
    · rw [if_neg h1]; exact hJ i j (by omega)
  | cons t ts ih =>
    obtain ⟨hx, hv, hB⟩ := h t List.mem_cons_self
    simp only [List.map_cons, List.flatten_cons]
    rw [prodJintegrateLoop, List.append_assoc, List.append_assoc, segment_mid' xp t.x _ _ _ rfl hx.symm]
    simp only [bind, Except.bind]
    rw [segment_mid' vp t.v _ _ _ rfl hv.symm]
    simp only
    have hz : subBlock J vp.length = fun _ _ => 0 := by
      funext i j
      exact hJ _ _ (Or.inl (by omega))
    rw [hz, hB]
    simp only
    have := ih (xp ++ t.x) (vp ++ t.v) (setBlock J vp.length t.M.ndx t.B)
      (fun t' ht' => h t' (List.mem_cons_of_mem _ ht')) (by
        intro i j hij
        simp only [List.length_append] at hij
        unfold setBlock
        rw [if_neg (by omega)]
        exact hJ i j (by omega))
    simp only [List.length_append, List.append_assoc, hx, hv] at this
    rw [this]
    congr 1
    funext i j
    exact blockDiag_loop_step t.M.ndx vp.length t.B J _ hJ i j

theorem prodJdifferenceLoop_spec (arg : ℤ) (ts : List (JBlk K)) (xp vp xq vq : List K) (cv : ℕ) (J : ℕ → ℕ → K)
    (h : ∀ t ∈ ts, t.x.length = t.M.nx ∧ t.v.length = t.M.nx ∧ t.M.Jdifference t.x t.v (fun _ _ => 0) arg = .ok t.B)
    (hl : vp.length = xp.length) (hJ : ∀ i j, cv ≤ i ∨ cv ≤ j → J i j = 0) :
    prodJdifferenceLoop arg (ts.map (·.M)) (xp ++ ((ts.map (·.x)).flatten ++ xq)) (vp ++ ((ts.map (·.v)).flatten ++ vq)) xp.length
      cv J = .ok fun i j => if i < cv ∧ j < cv then J i j
        else if cv ≤ i ∧ cv ≤ j then blockDiag (ts.map fun t => (t.M.ndx, t.B)) (i - cv) (j - cv) else 0 := by
  induction ts generalizing xp vp J cv with
  | nil =>
    simp only [List.map_nil, prodJdifferenceLoop, blockDiag, ite_self]
    congr 1
    funext i j
    by_cases h1 : i < cv ∧ j < cv
    · rw [if_pos h1]
    · rw [if_neg h1]; exact hJ i j (by omega)
  | cons t ts ih =>
    obtain ⟨hx, hv, hB⟩ := h t List.mem_cons_self
    simp only [List.map_cons, List.flatten_cons]
    rw [prodJdifferenceLoop, List.append_assoc, List.append_assoc, segment_mid' xp t.x _ _ _ rfl hx.symm]
    simp only [bind, Except.bind]
    rw [segment_mid' vp t.v _ _ _ hl.symm hv.symm]
    simp only
    have hz : subBlock J cv = fun _ _ => 0 := by
      funext i j
      exact hJ _ _ (Or.inl (by omega))
    rw [hz, hB]
    simp only
    have := ih (xp ++ t.x) (vp ++ t.v) (cv + t.M.ndx) (setBlock J cv t.M.ndx t.B)
      (fun t' ht' => h t' (List.mem_cons_of_mem _ ht')) (by simp; omega) (by
        intro i j hij
        unfold setBlock
        rw [if_neg (by omega)]
        exact hJ i j (by omega))
    simp only [List.length_append, List.append_assoc, hx] at this
    rw [this]
    congr 1
    funext i j
    exact blockDiag_loop_step t.M.ndx cv t.B J _ hJ i j

/-- **C44, Jacobians**: the Jacobians of a product are block-diagonal with the Jacobians of the components, whatever the
output matrix contained. -/
theorem C44_jacobians_block_diagonal (arg : ℤ) (ts : List (JBlk K)) (J : ℕ → ℕ → K) :
    ((∀ t ∈ ts, t.x.length = t.M.nx ∧ t.v.length = t.M.ndx ∧ t.M.Jintegrate t.x t.v (fun _ _ => 0) arg = .ok t.B) →
      (cartesianProduct (ts.map (·.M))).Jintegrate (ts.map (·.x)).flatten (ts.map (·.v)).flatten J arg =
        .ok (blockDiag (ts.map fun t => (t.M.ndx, t.B)))) ∧
    ((∀ t ∈ ts, t.x.length = t.M.nx ∧ t.v.length = t.M.nx ∧ t.M.Jdifference t.x t.v (fun _ _ => 0) arg = .ok t.B) →
      (cartesianProduct (ts.map (·.M))).Jdifference (ts.map (·.x)).flatten (ts.map (·.v)).flatten J arg =
        .ok (blockDiag (ts.map fun t => (t.M.ndx, t.B)))) := by
  constructor
  · intro h
    have := prodJintegrateLoop_spec arg ts [] [] [] [] (fun _ _ => 0) h (by simp)
    simpa [cartesianProduct] using this
  · intro h
    have := prodJdifferenceLoop_spec arg ts [] [] [] [] 0 (fun _ _ => 0) h rfl (by simp)
    simpa [cartesianProduct] using this

/-- Not vacuous: `Jdifference(., ., 0)` on `R^1 × R^2`. -/
example : ∃ R, (cartesianProduct [ProxNLP.vectorSpace 1, ProxNLP.vectorSpace 2] : Manifold ℚ).Jdifference [1, 2, 3] [4, 5, 6] (fun _ _ => 7) 0 =
    .ok R ∧ R 0 0 = -1 ∧ R 2 2 = -1 ∧ R 0 1 = 0 := by
  have := (C44_jacobians_block_diagonal (K := ℚ) 0
    [⟨ProxNLP.vectorSpace 1, [1], [4], fun i j => -idMat i j⟩, ⟨ProxNLP.vectorSpace 2, [2, 3], [5, 6], fun i j => -idMat i j⟩]
    (fun _ _ => 7)).2 (by simp [ProxNLP.vectorSpace])
  exact ⟨_, this, by decide +kernel, by decide +kernel, by decide +kernel⟩

/-! ### C45 -/

theorem splitLoop_spec (ns : List ℕ) (xs : List (List K)) (p q : List K) (h : List.Forall₂ (fun n b => b.length = n) ns xs) :
    splitLoop ns (p ++ (xs.flatten ++ q)) p.length = .ok xs := by
  induction h generalizing p with
  | nil => rfl
  | cons h1 _ ih =>
    rename_i n b ns' xs' _
    simp only [List.flatten_cons]
    rw [splitLoop, List.append_assoc, segment_mid' p b _ _ _ rfl h1.symm]
    simp only [bind, Except.bind]
    have := ih (p ++ b)
    simp only [List.length_append, List.append_assoc, h1] at this
    rw [this]
    rfl

theorem mergeLoop_spec (ns : List ℕ) (xs ys : List (List K)) (p o : List K) (h : List.Forall₂ (fun n b => b.length = n) ns xs)
    (ho : o.length = ns.sum) : mergeLoop ns (xs ++ ys) p.length (p ++ o) = .ok (p ++ xs.flatten) := by
  induction h generalizing p o with
  | nil =>
    simp only [List.sum_nil, List.length_eq_zero_iff] at ho
    subst ho
    rfl
  | cons h1 _ ih =>
    rename_i n b ns' xs' _
    simp only [List.sum_cons, List.flatten_cons] at ho ⊢
    obtain ⟨o1, o2, rfl, ho1, ho2⟩ := exists_split o _ _ ho
    rw [List.cons_append, mergeLoop]
    rw [if_neg (by simpa using h1), setSegment_mid' p o1 o2 b _ rfl (by omega)]
    simp only [bind, Except.bind]
    have := ih (p ++ b) o2 ho2
    simp only [List.length_append, List.append_assoc, h1] at this
    exact this

/-- **C45**: splitting a point of the right size succeeds, into blocks of the components' sizes, and merging them gives the
point back; every list of blocks of the right sizes is merged, and splitting the result gives the list back. -/
theorem C45_split_merge_inverse (Ms : List (Manifold K)) :
    (∀ x : List K, x.length = (Ms.map (·.nx)).sum →
      ∃ xs, prodSplit Ms x = .ok xs ∧ List.Forall₂ (fun M b => b.length = M.nx) Ms xs ∧ prodMerge Ms xs = .ok x) ∧
    (∀ xs, List.Forall₂ (fun M b => b.length = M.nx) Ms xs → ∃ x, prodMerge Ms xs = .ok x ∧ prodSplit Ms x = .ok xs) ∧
    (∀ v : List K, v.length = (Ms.map (·.ndx)).sum →
      ∃ vs, prodSplitVector Ms v = .ok vs ∧ List.Forall₂ (fun M b => b.length = M.ndx) Ms vs ∧ prodMergeVector Ms vs = .ok v) ∧
    (∀ vs, List.Forall₂ (fun M b => b.length = M.ndx) Ms vs → ∃ v, prodMergeVector Ms vs = .ok v ∧ prodSplitVector Ms v = .ok vs) := by
  have S : ∀ xs, List.Forall₂ (fun M b => b.length = M.nx) Ms xs → prodSplit Ms xs.flatten = .ok xs := by
    intro xs hxs
    unfold prodSplit
    rw [if_neg (by rw [prodNx_eq, flatten_len (·.nx) Ms xs hxs]; simp)]
    have := splitLoop_spec (Ms.map (·.nx)) xs [] [] (by rw [List.forall₂_map_left_iff]; exact hxs)
    simpa using this
  have Mg : ∀ xs, List.Forall₂ (fun M b => b.length = M.nx) Ms xs → prodMerge Ms xs = .ok xs.flatten := by
    intro xs hxs
    have := mergeLoop_spec (Ms.map (·.nx)) xs [] [] (freshVec (prodNx Ms)) (by rw [List.forall₂_map_left_iff]; exact hxs)
      (by simp [freshVec, prodNx_eq])
    simp only [List.append_nil, List.length_nil, List.nil_append] at this
    exact this
  have Sv : ∀ xs, List.Forall₂ (fun M b => b.length = M.ndx) Ms xs → prodSplitVector Ms xs.flatten = .ok xs := by
    intro xs hxs
    unfold prodSplitVector
    rw [if_neg (by rw [prodNdx_eq, flatten_len (·.ndx) Ms xs hxs]; simp)]
    have := splitLoop_spec (Ms.map (·.ndx)) xs [] [] (by rw [List.forall₂_map_left_iff]; exact hxs)
    simpa using this
  have Mv : ∀ xs, List.Forall₂ (fun M b => b.length = M.ndx) Ms xs → prodMergeVector Ms xs = .ok xs.flatten := by
    intro xs hxs
    have := mergeLoop_spec (Ms.map (·.ndx)) xs [] [] (freshVec (prodNdx Ms)) (by rw [List.forall₂_map_left_iff]; exact hxs)
      (by simp [freshVec, prodNdx_eq])
    simp only [List.append_nil, List.length_nil, List.nil_append] at this
    exact this
  refine ⟨?_, fun xs hxs => ⟨_, Mg xs hxs, S xs hxs⟩, ?_, fun vs hvs => ⟨_, Mv vs hvs, Sv vs hvs⟩⟩
  · intro x hx
    obtain ⟨xs, h1, rfl⟩ := splitByLens _ x hx
    rw [List.forall₂_map_left_iff] at h1
    exact ⟨xs, S xs h1, h1, Mg xs h1⟩
  · intro x hx
    obtain ⟨xs, h1, rfl⟩ := splitByLens _ x hx
    rw [List.forall₂_map_left_iff] at h1
    exact ⟨xs, Sv xs h1, h1, Mv xs h1⟩

/-- **C45, rejection**: splitting throws exactly for a vector of the wrong total size. -/
theorem C45_split_rejects (Ms : List (Manifold K)) (x : List K) :
    (prodSplit Ms x = .error .throws ↔ x.length ≠ (Ms.map (·.nx)).sum) ∧
    (prodSplitVector Ms x = .error .throws ↔ x.length ≠ (Ms.map (·.ndx)).sum) := by
  constructor
  · constructor
    · intro h hlen
      obtain ⟨xs, h1, -⟩ := (C45_split_merge_inverse Ms).1 x hlen
      rw [h1] at h
      cases h
    · intro h
      unfold prodSplit
      rw [if_pos (by rwa [prodNx_eq])]
  · constructor
    · intro h hlen
      obtain ⟨xs, h1, -⟩ := (C45_split_merge_inverse Ms).2.2.1 x hlen
      rw [h1] at h
      cases h
    · intro h
      unfold prodSplitVector
      rw [if_pos (by rwa [prodNdx_eq])]

/-- **C45 is false for `merge`**: blocks beyond the number of components are silently dropped, so a list of a wrong total
size is not rejected. -/
theorem C45_merge_rejects_false (Ms : List (Manifold K)) (xs extra : List (List K))
    (h : List.Forall₂ (fun M b => b.length = M.nx) Ms xs) : prodMerge Ms (xs ++ extra) = .ok xs.flatten := by
  have := mergeLoop_spec (Ms.map (·.nx)) xs extra [] (freshVec (prodNx Ms)) (by rw [List.forall₂_map_left_iff]; exact h)
    (by simp [freshVec, prodNx_eq])
  simp only [List.length_nil, List.nil_append] at this
  exact this

/-- Not vacuous. -/
example : prodSplit [ProxNLP.vectorSpace 1, ProxNLP.vectorSpace 2] ([1, 2, 3] : List ℚ) = .ok [[1], [2, 3]] ∧
    prodMerge [ProxNLP.vectorSpace 1, ProxNLP.vectorSpace 2] ([[1], [2, 3], [9]] : List (List ℚ)) = .ok [1, 2, 3] ∧
    prodSplit [ProxNLP.vectorSpace 1, ProxNLP.vectorSpace 2] ([1, 2] : List ℚ) = .error .throws := by decide +kernel

/-! ### C46 -/

theorem prodNormLoop_true (Ms : List (Manifold K)) (xs : List (List K)) (b : Bool) (h : prodNormLoop Ms xs true = .ok b) : b = true := by
  induction Ms generalizing xs with
  | nil => simp only [prodNormLoop] at h; injection h with h; exact h.symm
  | cons M Ms ih =>
    cases xs with
    | nil => simp [prodNormLoop] at h
    | cons x xs =>
      simp only [prodNormLoop, bind, Except.bind] at h
      cases hb : M.isNormalized x with
      | error e => rw [hb] at h; simp at h
      | ok c => rw [hb] at h; simp only [Bool.true_or] at h; exact ih xs h

theorem prodNormLoop_ok (Ms : List (Manifold K)) (xs : List (List K))
    (h : List.Forall₂ (fun M x => ∃ b, M.isNormalized x = .ok b) Ms xs) : prodNormLoop Ms xs true = .ok true := by
  induction h with
  | nil => rfl
  | cons h1 _ ih =>
    obtain ⟨b, hb⟩ := h1
    simp only [prodNormLoop, bind, Except.bind, hb, Bool.true_or]
    exact ih

/-- **C46, proved part**: a point all of whose blocks are normalized is reported as normalized. -/
theorem C46_normalized_partial (Ms : List (Manifold K)) (xs : List (List K)) (hlen : List.Forall₂ (fun M b => b.length = M.nx) Ms xs)
    (h : List.Forall₂ (fun M x => M.isNormalized x = .ok true) Ms xs) :
    (cartesianProduct Ms).isNormalized xs.flatten = .ok true := by
  obtain ⟨x, h1, h2⟩ := (C45_split_merge_inverse Ms).2.1 xs hlen
  have h3 := C45_merge_rejects_false Ms xs [] hlen
  rw [List.append_nil, h1] at h3
  injection h3 with h3
  subst h3
  simp only [cartesianProduct, h2, bind, Except.bind]
  exact prodNormLoop_ok Ms xs (forall2_imp h fun _ _ _ hb => ⟨_, hb⟩)

/-- **C46 is false**: the answer is always `true`, for every product and every point on which it answers. -/
theorem C46_always_true (Ms : List (Manifold K)) (x : List K) (b : Bool) (h : (cartesianProduct Ms).isNormalized x = .ok b) : b = true := by
  simp only [cartesianProduct, bind, Except.bind] at h
  cases hs : prodSplit Ms x with
  | error e => rw [hs] at h; simp at h
  | ok xs => rw [hs] at h; exact prodNormLoop_true Ms xs b h

/-- **C46 is false**, concretely: no component is normalized, the product is reported normalized. -/
theorem C46_is_normalized_false :
    Demo.picky.isNormalized [2] = .ok false ∧ (cartesianProduct [Demo.picky, Demo.picky]).isNormalized [2, 3] = .ok true := by
  decide +kernel

example : (cartesianProduct [Demo.picky, Demo.picky]).isNormalized [1, 1] = .ok true :=
  C46_normalized_partial [Demo.picky, Demo.picky] [[1], [1]] (.cons rfl (.cons rfl .nil))
    (.cons (by decide +kernel) (.cons (by decide +kernel) .nil))

/-! ### C47 -/

/-- **C47, proved part**: two plain manifolds, a product and a plain manifold, and (in the reading where the left product is
copied) two products give the factors in order; `addComponent` appends at the end. -/
theorem C47_order_partial (nests : Bool) (a b : Manifold K) (as bs : List (Manifold K)) :
    prodMul nests (.plain a) (.plain b) = [a] ++ [b] ∧ prodMul nests (.prod as) (.plain b) = as ++ [b] ∧
    prodMul false (.prod as) (.prod bs) = as ++ bs ∧ (∀ op, prodAddComponent as op = as ++ op.comps) := by
  refine ⟨rfl, rfl, by simp [prodMul], ?_⟩
  intro op
  cases op with
  | plain M => rfl
  | prod other =>
    simp only [prodAddComponent, ProdOperand.comps]
    induction other generalizing as with
    | nil => simp
    | cons c cs ih => rw [List.foldl_cons, ih]; simp

/-- **C47 is false**: a plain manifold times a product puts the plain factor last. -/
theorem C47_plain_times_product_false (nests : Bool) :
    (prodMul nests (.plain (ProxNLP.vectorSpace 1)) (.prod [(ProxNLP.vectorSpace 2 : Manifold ℚ)])).map (·.nx) = [2, 1] ∧
    ((ProdOperand.plain (ProxNLP.vectorSpace 1 : Manifold ℚ)).comps ++ (ProdOperand.prod [(ProxNLP.vectorSpace 2 : Manifold ℚ)]).comps).map (·.nx) =
      [1, 2] := ⟨rfl, rfl⟩

/-- **C47 is false** for two products if the left operand is list-initialised into a single component. -/
theorem C47_product_times_product_false :
    (prodMul true (.prod [(ProxNLP.vectorSpace 1 : Manifold ℚ), ProxNLP.vectorSpace 2]) (.prod [ProxNLP.vectorSpace 3])).map (·.nx) = [3, 3] ∧
    ((ProdOperand.prod [(ProxNLP.vectorSpace 1 : Manifold ℚ), ProxNLP.vectorSpace 2]).comps ++
      (ProdOperand.prod [(ProxNLP.vectorSpace 3 : Manifold ℚ)]).comps).map (·.nx) = [1, 2, 3] := ⟨rfl, rfl⟩

theorem forall2_append_split {α β : Type} {R : α → β → Prop} {A B : List α} {l : List β} (h : List.Forall₂ R (A ++ B) l) :
    ∃ a b, l = a ++ b ∧ List.Forall₂ R A a ∧ List.Forall₂ R B b := by
  induction A generalizing l with
  | nil => exact ⟨[], l, rfl, .nil, h⟩
  | cons S A ih =>
    cases h with
    | cons h1 h2 =>
      obtain ⟨a, b, rfl, h3, h4⟩ := ih h2
      exact ⟨_ :: a, b, rfl, .cons h1 h3, h4⟩

theorem cartesianProduct_nx (Ms : List (Manifold K)) : (cartesianProduct Ms).nx = (Ms.map (·.nx)).sum := prodNx_eq Ms
theorem cartesianProduct_ndx (Ms : List (Manifold K)) : (cartesianProduct Ms).ndx = (Ms.map (·.ndx)).sum := prodNdx_eq Ms

/-- **C47, nesting is harmless for the operations**: even in that reading the resulting product has the same points, and
integrates and takes differences on the same coordinates, as the product of the two lists of components. -/
theorem C47_nested_product_same (A B : List (Space K)) (hA : ∀ S ∈ A, Lawful S) (hB : ∀ S ∈ B, Lawful S) :
    (∀ x, (product (product A :: B)).valid x ↔ (product (A ++ B)).valid x) ∧
    (∀ x v y, (product (A ++ B)).valid x → v.length = (product (A ++ B)).M.ndx →
      (IntTo (product (product A :: B)).M x v y ↔ IntTo (product (A ++ B)).M x v y)) ∧
    (∀ x x' d, (product (A ++ B)).valid x → (product (A ++ B)).valid x' →
      (DiffTo (product (product A :: B)).M x x' d ↔ DiffTo (product (A ++ B)).M x x' d)) := by
  have split2 : ∀ {x}, (product (A ++ B)).valid x → ∃ xa xb, List.Forall₂ (fun S b => S.valid b) A xa ∧
      List.Forall₂ (fun S b => S.valid b) B xb ∧ x = (xa ++ xb).flatten := by
    rintro x ⟨xs, hxs, rfl⟩
    obtain ⟨xa, xb, rfl, h1, h2⟩ := forall2_append_split hxs
    exact ⟨xa, xb, h1, h2, rfl⟩
  have hAB : ∀ S ∈ A ++ B, Lawful S := by
    intro S hS
    rcases List.mem_append.1 hS with h | h
    · exact hA S h
    · exact hB S h
  have lA := C44_product_laws A hA
  refine ⟨?_, ?_, ?_⟩
  · intro x
    constructor
    · rintro ⟨xs, hxs, rfl⟩
      cases hxs with
      | cons h1 h2 =>
        obtain ⟨ys, hys, rfl⟩ := h1
        exact ⟨ys ++ _, List.rel_append hys h2, by simp⟩
    · intro hx
      obtain ⟨xa, xb, ha, hb, rfl⟩ := split2 hx
      exact ⟨xa.flatten :: xb, .cons ⟨xa, ha, rfl⟩ hb, by simp⟩
  · intro x v y hx hv
    obtain ⟨xa, xb, ha, hb, rfl⟩ := split2 hx
    rw [(C44_dims (A ++ B)).2, List.map_append, List.sum_append] at hv
    obtain ⟨va, vb, rfl, hva, hvb⟩ := exists_split v _ _ hv
    obtain ⟨vas, hvas, rfl⟩ := splitByLens _ va hva
    obtain ⟨vbs, hvbs, rfl⟩ := splitByLens _ vb hvb
    rw [List.forall₂_map_left_iff] at hvas hvbs
    have blocks : ∀ (C : List (Space K)) (xs vs : List (List K)), (∀ S ∈ C, Lawful S) → List.Forall₂ (fun S b => S.valid b) C xs →
        List.Forall₂ (fun S b => b.length = S.M.ndx) C vs → ∃ ts : List (Blk K), C.map (·.M) = ts.map (·.M) ∧
          xs = ts.map (·.x) ∧ vs = ts.map (·.v) ∧ (∀ t ∈ ts, t.x.length = t.M.nx ∧ t.v.length = t.M.ndx ∧ t.y.length = t.M.nx ∧ IntTo t.M t.x t.v t.y) := by
      intro C xs vs hC hxs hvs
      obtain ⟨ts, e1, e2, e3, e4⟩ := exists_blocks (R := fun S x v y => S.valid y ∧ IntTo S.M x v y) C xs vs _ _ hxs hvs
        fun S hS x v hx hv => (hC S hS).integrate_valid x v hx hv
      refine ⟨ts, e1, e2, e3, forall_of_forall2 e4 hC ?_⟩
      rintro S t hS ⟨r, hx, hv, hy, hi⟩
      rw [r]
      exact ⟨hS.valid_len _ hx, hv, hS.valid_len _ hy, hi⟩
    obtain ⟨ta, a1, a2, a3, a4⟩ := blocks A xa vas hA ha hvas
    obtain ⟨tb, b1, b2, b3, b4⟩ := blocks B xb vbs hB hb hvbs
    have flatL : ∀ (f : Blk K → List K) (n : Blk K → ℕ), (∀ t ∈ ta, (f t).length = n t) → ((ta.map f).flatten).length = (ta.map n).sum := by
      intro f n hf
      clear a1 a2 a3 a4
      induction ta with
      | nil => rfl
      | cons t ta ih => simp [hf t List.mem_cons_self, ih fun t' ht' => hf t' (List.mem_cons_of_mem _ ht')]
    have h1 := product_intTo (ta ++ tb) (by
      intro t ht
      rcases List.mem_append.1 ht with h | h
      · exact a4 t h
      · exact b4 t h)
    have h2 := product_intTo (⟨cartesianProduct (ta.map (·.M)), (ta.map (·.x)).flatten, (ta.map (·.v)).flatten, (ta.map (·.y)).flatten⟩ :: tb) (by
      intro t ht
      rcases List.mem_cons.1 ht with rfl | h
      · simp only [cartesianProduct_nx, cartesianProduct_ndx, List.map_map]
        exact ⟨flatL _ _ fun t ht => (a4 t ht).1, flatL _ _ fun t ht => (a4 t ht).2.1, flatL _ _ fun t ht => (a4 t ht).2.2.1, product_intTo ta a4⟩
      · exact b4 t h)
    have m1 : (product (A ++ B)).M = cartesianProduct ((ta ++ tb).map (·.M)) := by
      simp only [product, List.map_append, a1, b1]
    have m2 : (product (product A :: B)).M = cartesianProduct (cartesianProduct (ta.map (·.M)) :: tb.map (·.M)) := by
      simp only [product, List.map_cons, a1, b1]
    simp only [List.map_append, List.map_cons, List.flatten_append, List.flatten_cons] at h1 h2
    rw [m1, m2, a2, b2, a3, b3]
    simp only [List.map_append, List.flatten_append] at *
    constructor
    · intro h; rw [intTo_unique h h2]; exact h1
    · intro h; rw [intTo_unique h h1]; exact h2
  · intro x x' d hx hx'
    obtain ⟨xa, xb, ha, hb, rfl⟩ := split2 hx
    obtain ⟨ya, yb, hya, hyb, rfl⟩ := split2 hx'
    have blocks : ∀ (C : List (Space K)) (xs vs : List (List K)), (∀ S ∈ C, Lawful S) → List.Forall₂ (fun S b => S.valid b) C xs →
        List.Forall₂ (fun S b => S.valid b) C vs → ∃ ts : List (Blk K), C.map (·.M) = ts.map (·.M) ∧
          xs = ts.map (·.x) ∧ vs = ts.map (·.y) ∧ (∀ t ∈ ts, t.x.length = t.M.nx ∧ t.y.length = t.M.nx ∧ t.v.length = t.M.ndx ∧ DiffTo t.M t.x t.y t.v) := by
      intro C xs vs hC hxs hvs
      obtain ⟨ts, e1, e2, e3, e4⟩ := exists_blocks (R := fun S x y d => d.length = S.M.ndx ∧ DiffTo S.M x y d) C xs vs _ _ hxs hvs
        fun S hS x v hx hv => (hC S hS).difference_len x v hx hv
      refine ⟨ts.map fun t => ⟨t.M, t.x, t.y, t.v⟩, by simp [e1, Function.comp_def], by simp [e2, Function.comp_def],
        by simp [e3, Function.comp_def], ?_⟩
      have := forall_of_forall2 (Q := fun t : Blk K => t.x.length = t.M.nx ∧ t.v.length = t.M.nx ∧ t.y.length = t.M.ndx ∧
          DiffTo t.M t.x t.v t.y) e4 hC (by
        rintro S t hS ⟨r, hx, hv, hy, hi⟩
        rw [r]
        exact ⟨hS.valid_len _ hx, hS.valid_len _ hv, hy, hi⟩)
      intro t' ht'
      obtain ⟨t, ht, rfl⟩ := List.mem_map.1 ht'
      exact this t ht
    obtain ⟨ta, a1, a2, a3, a4⟩ := blocks A xa ya hA ha hya
    obtain ⟨tb, b1, b2, b3, b4⟩ := blocks B xb yb hB hb hyb
    have flatL : ∀ (f : Blk K → List K) (n : Blk K → ℕ), (∀ t ∈ ta, (f t).length = n t) → ((ta.map f).flatten).length = (ta.map n).sum := by
      intro f n hf
      clear a1 a2 a3 a4
      induction ta with
      | nil => rfl
      | cons t ta ih => simp [hf t List.mem_cons_self, ih fun t' ht' => hf t' (List.mem_cons_of_mem _ ht')]
    have h1 := product_diffTo (ta ++ tb) (by
      intro t ht
      rcases List.mem_append.1 ht with h | h
      · exact a4 t h
      · exact b4 t h)
    have h2 := product_diffTo (⟨cartesianProduct (ta.map (·.M)), (ta.map (·.x)).flatten, (ta.map (·.v)).flatten, (ta.map (·.y)).flatten⟩ :: tb) (by
      intro t ht
      rcases List.mem_cons.1 ht with rfl | h
      · simp only [cartesianProduct_nx, cartesianProduct_ndx, List.map_map]
        exact ⟨flatL _ _ fun t ht => (a4 t ht).1, flatL _ _ fun t ht => (a4 t ht).2.1, flatL _ _ fun t ht => (a4 t ht).2.2.1, product_diffTo ta a4⟩
      · exact b4 t h)
    have m1 : (product (A ++ B)).M = cartesianProduct ((ta ++ tb).map (·.M)) := by
      simp only [product, List.map_append, a1, b1]
    have m2 : (product (product A :: B)).M = cartesianProduct (cartesianProduct (ta.map (·.M)) :: tb.map (·.M)) := by
      simp only [product, List.map_cons, a1, b1]
    simp only [List.map_append, List.map_cons, List.flatten_append, List.flatten_cons] at h1 h2
    rw [m1, m2, a2, b2, a3, b3]
    simp only [List.map_append, List.flatten_append] at *
    constructor
    · intro h; rw [diffTo_unique h h2]; exact h1
    · intro h; rw [diffTo_unique h h1]; exact h2

/-- Not vacuous. -/
example : (product (product Demo.r12 :: [Spec.vectorSpace 1])).valid ([1, 2, 3, 4] : List ℚ) :=
  ((C47_nested_product_same Demo.r12 [Spec.vectorSpace 1] (by
    intro S hS
    simp only [Demo.r12, List.mem_cons, List.not_mem_nil, or_false] at hS
    rcases hS with rfl | rfl <;> exact C43_vector_space_laws _) (by
    intro S hS
    simp only [List.mem_cons, List.not_mem_nil, or_false] at hS
    subst hS
    exact C43_vector_space_laws _)).1 _).2 ⟨[[1], [2, 3], [4]], .cons rfl (.cons rfl (.cons rfl .nil)), rfl⟩

end ProxNLP
