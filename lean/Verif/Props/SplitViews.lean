import Verif.Lemmas.SplitViews
import Mathlib.Algebra.Field.Rat

/-! C125: the pieces `split` returns are the vector. -/

set_option linter.unusedSectionVars false
namespace ProxNLP

open Spec

variable {K : Type} [Field K]

/-- **C125, points.** `split` of a vector `x` of the right size, anywhere in memory, returns references, and every program that reads and writes
through these references and through `x` itself, and merges the pieces, behaves as if the pieces were separate lists and `x` their
concatenation: the same values are read, an index out of range is the only failure, and at the end the memory holds the concatenated pieces at
the place of `x` and is unchanged elsewhere. -/
theorem C125_pieces_are_the_vector (Ms : List (Manifold K)) (pre x post : List K) (hx : x.length = (Ms.map (·.nx)).sum) :
    ∃ ws bs, prodSplitViews Ms ⟨pre.length, x.length⟩ = .ok ws ∧ prodSplit Ms x = .ok bs ∧ bs.flatten = x ∧
      ws.map (·.len) = Ms.map (·.nx) ∧
      ∀ ops, pieceRun (Ms.map (·.nx)) ⟨pre.length, x.length⟩ ws (pre ++ x ++ post) ops = inMemory pre post (blockRun bs ops) := by
  obtain ⟨bs, h1, h2, h3⟩ := (C45_split_merge_inverse Ms).1 x hx
  have hf : bs.flatten = x := by
    have := C45_merge_rejects_false Ms bs [] h2
    rw [List.append_nil, h3] at this
    exact (Except.ok.inj this).symm
  have hlens : bs.map List.length = Ms.map (·.nx) := by
    clear h1 h3 hf hx
    induction h2 with
    | nil => rfl
    | cons a _ ih => simp only [List.map_cons, a, ih]
  refine ⟨viewsOf pre.length (Ms.map (·.nx)), bs, ?_, h1, hf, ?_, fun ops => ?_⟩
  · rw [prodSplitViews, if_neg (by rw [prodNx_eq]; simpa using hx), splitViewsLoop_ok _ _ _ (by simp only [hx]; omega)]; rfl
  · generalize Ms.map (·.nx) = ns
    generalize pre.length = c
    induction ns generalizing c with
    | nil => rfl
    | cons n ns ih => simp only [viewsOf, List.map_cons, ih]
  · rw [← hf]
    exact pieceRun_spec pre post ops _ _ bs hlens (by rw [hf, hx])

/-- **C125, tangent vectors.** The same for `split_vector`. -/
theorem C125_vector_pieces_are_the_vector (Ms : List (Manifold K)) (pre x post : List K) (hx : x.length = (Ms.map (·.ndx)).sum) :
    ∃ ws bs, prodSplitVectorViews Ms ⟨pre.length, x.length⟩ = .ok ws ∧ prodSplitVector Ms x = .ok bs ∧ bs.flatten = x ∧
      ws.map (·.len) = Ms.map (·.ndx) ∧
      ∀ ops, pieceRun (Ms.map (·.ndx)) ⟨pre.length, x.length⟩ ws (pre ++ x ++ post) ops = inMemory pre post (blockRun bs ops) := by
  obtain ⟨bs, h1, h2, h3⟩ := (C45_split_merge_inverse Ms).2.2.1 x hx
  have hf : bs.flatten = x := by
    have := mergeLoop_spec (Ms.map (·.ndx)) bs [] [] (freshVec (prodNdx Ms)) (by rw [List.forall₂_map_left_iff]; exact h2)
      (by simp [freshVec, prodNdx_eq])
    simp only [List.length_nil, List.nil_append, List.append_nil] at this
    exact Except.ok.inj (this.symm.trans h3)
  have hlens : bs.map List.length = Ms.map (·.ndx) := by
    clear h1 h3 hf hx
    induction h2 with
    | nil => rfl
    | cons a _ ih => simp only [List.map_cons, a, ih]
  refine ⟨viewsOf pre.length (Ms.map (·.ndx)), bs, ?_, h1, hf, ?_, fun ops => ?_⟩
  · rw [prodSplitVectorViews, if_neg (by rw [prodNdx_eq]; simpa using hx), splitViewsLoop_ok _ _ _ (by simp only [hx]; omega)]; rfl
  · generalize Ms.map (·.ndx) = ns
    generalize pre.length = c
    induction ns generalizing c with
    | nil => rfl
    | cons n ns ih => simp only [viewsOf, List.map_cons, ih]
  · rw [← hf]
    exact pieceRun_spec pre post ops _ _ bs hlens (by rw [hf, hx])

/-- **C125, rejection.** A vector of the wrong size makes `split` and `split_vector` throw, and nothing else does. -/
theorem C125_split_rejects (Ms : List (Manifold K)) (w : View) :
    (prodSplitViews Ms w = .error .throws ↔ w.len ≠ (Ms.map (·.nx)).sum) ∧
    (prodSplitVectorViews Ms w = .error .throws ↔ w.len ≠ (Ms.map (·.ndx)).sum) := by
  refine ⟨⟨fun h hl => ?_, fun h => by rw [prodSplitViews, if_pos (by rwa [prodNx_eq])]⟩,
    ⟨fun h hl => ?_, fun h => by rw [prodSplitVectorViews, if_pos (by rwa [prodNdx_eq])]⟩⟩
  · rw [prodSplitViews, if_neg (by rw [prodNx_eq]; simpa using hl), splitViewsLoop_ok _ _ _ (by rw [hl]; omega)] at h
    cases h
  · rw [prodSplitVectorViews, if_neg (by rw [prodNdx_eq]; simpa using hl), splitViewsLoop_ok _ _ _ (by rw [hl]; omega)] at h
    cases h

theorem splitEach_spec (Mss : List (List (Manifold K))) (c : ℕ) :
    splitEach prodSplitViews Mss (viewsOf c (Mss.map fun Ms => (Ms.map (·.nx)).sum)) = .ok (viewsOf c ((Mss.flatten).map (·.nx))) := by
  induction Mss generalizing c with
  | nil => rfl
  | cons Ms Mss ih =>
    have h : prodSplitViews Ms ⟨c, (Ms.map (·.nx)).sum⟩ = .ok (viewsOf c (Ms.map (·.nx))) := by
      rw [prodSplitViews, if_neg (by rw [prodNx_eq]; simp), splitViewsLoop_ok _ _ _ (by simp only [Nat.zero_add, Nat.le_refl])]; rfl
    simp only [List.map_cons, viewsOf, splitEach, h, bind, Except.bind, ih, List.flatten_cons, List.map_append, viewsOf_append]
    rfl

/-- **C125, nested products.** Components that are themselves products: splitting every piece of the outer product gives the references that
`split` of the product of all inner components gives, so C125 holds for the innermost pieces. `outer` are the outer components, whose sizes
are those of the products `Mss`. -/
theorem C125_nested (outer : List (Manifold K)) (Mss : List (List (Manifold K)))
    (hout : outer.map (·.nx) = Mss.map fun Ms => (Ms.map (·.nx)).sum) (w : View) (hw : w.len = (outer.map (·.nx)).sum) :
    ∃ ws, prodSplitViews outer w = .ok ws ∧ splitEach prodSplitViews Mss ws = prodSplitViews Mss.flatten w := by
  have hsum : (Mss.flatten.map (·.nx)).sum = (outer.map (·.nx)).sum := by
    rw [hout]
    clear hout
    induction Mss with
    | nil => rfl
    | cons Ms Mss ih => simp only [List.flatten_cons, List.map_append, List.sum_append, List.map_cons, List.sum_cons, ih]
  refine ⟨viewsOf w.off (outer.map (·.nx)), ?_, ?_⟩
  · rw [prodSplitViews, if_neg (by rw [prodNx_eq]; simpa using hw), splitViewsLoop_ok _ _ _ (by rw [hw]; omega)]; rfl
  · rw [hout, splitEach_spec, prodSplitViews, if_neg (by rw [prodNx_eq, hsum]; simpa using hw),
      splitViewsLoop_ok _ _ _ (by rw [hsum, hw]; omega)]; rfl

/-- non-vacuity: a point of `R¹ × R²` inside a longer vector; a program that writes both pieces and the point, reads, and merges -/
example : prodSplitViews [ProxNLP.vectorSpace 1, ProxNLP.vectorSpace 2] (K := ℚ) ⟨1, 3⟩ = .ok [⟨1, 1⟩, ⟨2, 2⟩] ∧
    pieceRun [1, 2] ⟨1, 3⟩ [⟨1, 1⟩, ⟨2, 2⟩] ([9, 1, 2, 3, 9] : List ℚ)
      [.write 0 0 5, .write 1 1 7, .readWhole 2, .writeWhole 1 4, .read 1 0, .merge] =
      .ok ([9, 5, 4, 7, 9], [[], [], [7], [], [4], [5, 4, 7]]) ∧
    pieceRun [1, 2] ⟨1, 3⟩ [⟨1, 1⟩, ⟨2, 2⟩] ([9, 1, 2, 3, 9] : List ℚ) [.write 0 1 5] = .error .undefined := by decide +kernel

/-- non-vacuity of the nested case: `(R¹ × R²) × R²` -/
example : splitEach prodSplitViews [[(ProxNLP.vectorSpace 1 : Manifold ℚ), ProxNLP.vectorSpace 2], [ProxNLP.vectorSpace 2]] [⟨4, 3⟩, ⟨7, 2⟩] =
    prodSplitViews [(ProxNLP.vectorSpace 1 : Manifold ℚ), ProxNLP.vectorSpace 2, ProxNLP.vectorSpace 2] ⟨4, 5⟩ := by decide +kernel

end ProxNLP
