import Verif.Lemmas.ManifoldCalculus

/-! Property theorems for C86: the Jacobians that manifolds return are the derivatives of their operations. -/

set_option linter.unusedSectionVars false
namespace ProxNLP

open Spec

/-! ### Vector spaces -/

/-- **C86, vector spaces**: both Jacobians are the derivatives, with respect to either argument, everywhere. -/
theorem C86_vector_space (n : ℕ) (x y : List ℝ) (hx : x.length = n) (hy : y.length = n) (arg : ℤ) (ha : arg = 0 ∨ arg = 1) :
    TrueJdifference (ProxNLP.vectorSpace n) x y arg ∧ TrueJintegrate (ProxNLP.vectorSpace n) x y arg := by
  have hadd : ∀ a b : List ℝ, a.length = n → b.length = n → IntTo (ProxNLP.vectorSpace n) a b (vAdd a b) := by
    intro a b h1 h2 out ho
    have ho' : out.length = n := ho
    simp [ProxNLP.vectorSpace, h1, h2, ho']
  have hsub : ∀ a b : List ℝ, a.length = n → b.length = n → DiffTo (ProxNLP.vectorSpace n) a b (vSub b a) := by
    intro a b h1 h2 out ho
    have ho' : out.length = n := ho
    simp [ProxNLP.vectorSpace, h1, h2, ho']
  have hla : ∀ a b : List ℝ, a.length = n → b.length = n → (vAdd a b).length = n := by
    intro a b h1 h2; simp [vAdd, h1, h2]
  constructor
  · intro J
    have hls : (vSub y x).length = n := by simp [vSub, hx, hy]
    rcases ha with rfl | rfl
    · refine ⟨fun i j => -idMat i j, rfl, ((HasListJacobian.affine n (vSub y x) hls (-1)).mono ?_).congr ?_⟩
      · rintro d r hd - rfl
        refine Or.inl ⟨rfl, _, hadd x d hx hd, ?_⟩
        have e : List.zipWith (fun a b => a + -1 * b) (vSub y x) d = vSub y (vAdd x d) := by
          apply List.ext_getElem
          · simp [vSub, vAdd, hx, hy, hd]
          · intro i h1 h2; simp [vSub, vAdd]; ring
        rw [e]
        exact hsub _ _ (hla x d hx hd) hy
      · intro i j _ _
        by_cases h : i = j <;> simp [idMat, h]
    · refine ⟨idMat, rfl, ((HasListJacobian.affine n (vSub y x) hls 1).mono ?_).congr ?_⟩
      · rintro d r hd - rfl
        refine Or.inr ⟨rfl, _, hadd y d hy hd, ?_⟩
        have e : List.zipWith (fun a b => a + 1 * b) (vSub y x) d = vSub (vAdd y d) x := by
          apply List.ext_getElem
          · simp [vSub, vAdd, hx, hy, hd]
          · intro i h1 h2; simp [vSub, vAdd]; ring
        rw [e]
        exact hsub _ _ hx (hla y d hy hd)
      · intro i j _ _
        by_cases h : i = j <;> simp [idMat, h]
  · intro J
    refine ⟨idMat, rfl, ((HasListJacobian.affine n (List.replicate n 0) (by simp) 1).mono ?_).congr ?_⟩
    · rintro d r hd - rfl
      rcases ha with rfl | rfl
      · refine Or.inl ⟨rfl, _, _, _, hadd x y hx hy, hadd x d hx hd, hadd _ y (hla x d hx hd) hy, ?_⟩
        have e : List.zipWith (fun a b => a + 1 * b) (List.replicate n 0) d = vSub (vAdd (vAdd x d) y) (vAdd x y) := by
          apply List.ext_getElem
          · simp [vSub, vAdd, hx, hy, hd]
          · intro i h1 h2; simp [vSub, vAdd]
        rw [e]
        exact hsub _ _ (hla x y hx hy) (hla _ y (hla x d hx hd) hy)
      · refine Or.inr ⟨rfl, _, _, hadd x y hx hy, hadd x _ hx (hla y d hy hd), ?_⟩
        have e : List.zipWith (fun a b => a + 1 * b) (List.replicate n 0) d = vSub (vAdd x (vAdd y d)) (vAdd x y) := by
          apply List.ext_getElem
          · simp [vSub, vAdd, hx, hy, hd]
          · intro i h1 h2; simp [vSub, vAdd]
        rw [e]
        exact hsub _ _ (hla x y hx hy) (hla x _ hx (hla y d hy hd))
    · intro i j _ _
      by_cases h : i = j <;> simp [idMat, h]

/-! ### Products -/

theorem forall2_zip {α β : Type} {R : α → β → Prop} {l : List α} {m : List β} (h : List.Forall₂ R l m) :
    ∃ us : List (α × β), l = us.map (·.1) ∧ m = us.map (·.2) ∧ ∀ u ∈ us, R u.1 u.2 := by
  induction h with
  | nil => exact ⟨[], rfl, rfl, by simp⟩
  | cons h1 _ ih =>
    obtain ⟨us, e1, e2, e3⟩ := ih
    refine ⟨(_, _) :: us, by rw [List.map_cons, e1], by rw [List.map_cons, e2], ?_⟩
    intro u hu
    rcases List.mem_cons.1 hu with rfl | hu
    · exact h1
    · exact e3 u hu

/-- a point reached from a valid point is valid -/
theorem intTo_valid {S : Space ℝ} (h : Lawful S) {x v y : List ℝ} (hx : S.valid x) (hv : v.length = S.M.ndx) (hy : IntTo S.M x v y) :
    S.valid y := by
  obtain ⟨y', h1, h2⟩ := h.integrate_valid x v hx hv
  rwa [intTo_unique hy h2]

/-- a component space with two arguments -/
abbrev Arg2 := Space ℝ × List ℝ × List ℝ

theorem product_moved_difference (ts : List Arg2) (hL : ∀ t ∈ ts, Lawful t.1) (hv : ∀ t ∈ ts, t.1.valid t.2.1 ∧ t.1.valid t.2.2)
    (arg : ℤ) (ha : arg = 0 ∨ arg = 1) (qs : List (List ℝ × List ℝ))
    (hq : List.Forall₂ (fun t q => q.1.length = t.1.M.ndx ∧ q.2.length = t.1.M.ndx ∧ MovedDifference t.1.M t.2.1 t.2.2 arg q.1 q.2) ts qs) :
    MovedDifference (cartesianProduct (ts.map fun t => t.1.M)) (ts.map fun t => t.2.1).flatten (ts.map fun t => t.2.2).flatten arg
      (qs.map (·.1)).flatten (qs.map (·.2)).flatten := by
  obtain ⟨us, rfl, rfl, hu⟩ := forall2_zip hq
  have hL' : ∀ u ∈ us, Lawful u.1.1 := fun u hu => hL _ (List.mem_map_of_mem hu)
  have hv' : ∀ u ∈ us, u.1.1.valid u.1.2.1 ∧ u.1.1.valid u.1.2.2 := fun u hu => hv _ (List.mem_map_of_mem hu)
  rcases ha with rfl | rfl
  · have : ∀ u, ∃ y, u ∈ us → IntTo u.1.1.M u.1.2.1 u.2.1 y ∧ DiffTo u.1.1.M y u.1.2.2 u.2.2 := by
      intro u
      by_cases h : u ∈ us
      · rcases (hu u h).2.2 with ⟨-, y, h1, h2⟩ | ⟨h0, -⟩
        · exact ⟨y, fun _ => ⟨h1, h2⟩⟩
        · exact absurd h0 (by decide)
      · exact ⟨[], fun h' => absurd h' h⟩
    choose y hy using this
    have hval : ∀ u ∈ us, u.1.1.valid (y u) := fun u h => intTo_valid (hL' u h) (hv' u h).1 (hu u h).1 (hy u h).1
    refine Or.inl ⟨rfl, (us.map y).flatten, ?_, ?_⟩
    · have := product_intTo (us.map fun u => ⟨u.1.1.M, u.1.2.1, u.2.1, y u⟩) (by
        intro t ht
        obtain ⟨u, h, rfl⟩ := List.mem_map.1 ht
        exact ⟨(hL' u h).valid_len _ (hv' u h).1, (hu u h).1, (hL' u h).valid_len _ (hval u h), (hy u h).1⟩)
      simpa [List.map_map, Function.comp_def] using this
    · have := product_diffTo (us.map fun u => ⟨u.1.1.M, y u, u.2.2, u.1.2.2⟩) (by
        intro t ht
        obtain ⟨u, h, rfl⟩ := List.mem_map.1 ht
        exact ⟨(hL' u h).valid_len _ (hval u h), (hL' u h).valid_len _ (hv' u h).2, (hu u h).2.1, (hy u h).2⟩)
      simpa [List.map_map, Function.comp_def] using this
  · have : ∀ u, ∃ y, u ∈ us → IntTo u.1.1.M u.1.2.2 u.2.1 y ∧ DiffTo u.1.1.M u.1.2.1 y u.2.2 := by
      intro u
      by_cases h : u ∈ us
      · rcases (hu u h).2.2 with ⟨h0, -⟩ | ⟨-, y, h1, h2⟩
        · exact absurd h0 (by decide)
        · exact ⟨y, fun _ => ⟨h1, h2⟩⟩
      · exact ⟨[], fun h' => absurd h' h⟩
    choose y hy using this
    have hval : ∀ u ∈ us, u.1.1.valid (y u) := fun u h => intTo_valid (hL' u h) (hv' u h).2 (hu u h).1 (hy u h).1
    refine Or.inr ⟨rfl, (us.map y).flatten, ?_, ?_⟩
    · have := product_intTo (us.map fun u => ⟨u.1.1.M, u.1.2.2, u.2.1, y u⟩) (by
        intro t ht
        obtain ⟨u, h, rfl⟩ := List.mem_map.1 ht
        exact ⟨(hL' u h).valid_len _ (hv' u h).2, (hu u h).1, (hL' u h).valid_len _ (hval u h), (hy u h).1⟩)
      simpa [List.map_map, Function.comp_def] using this
    · have := product_diffTo (us.map fun u => ⟨u.1.1.M, u.1.2.1, u.2.2, y u⟩) (by
        intro t ht
        obtain ⟨u, h, rfl⟩ := List.mem_map.1 ht
        exact ⟨(hL' u h).valid_len _ (hv' u h).1, (hL' u h).valid_len _ (hval u h), (hu u h).2.1, (hy u h).2⟩)
      simpa [List.map_map, Function.comp_def] using this

theorem zipWith_flatten {T : Type} (us : List T) (f g : T → List ℝ) (h : ∀ u ∈ us, (f u).length = (g u).length) :
    List.zipWith (· + ·) (us.map f).flatten (us.map g).flatten = (us.map fun u => List.zipWith (· + ·) (f u) (g u)).flatten := by
  induction us with
  | nil => rfl
  | cons u us ih =>
    simp only [List.map_cons, List.flatten_cons]
    rw [List.zipWith_append (h u List.mem_cons_self), ih fun u' hu' => h u' (List.mem_cons_of_mem _ hu')]

theorem product_moved_integrate (ts : List Arg2) (hL : ∀ t ∈ ts, Lawful t.1) (hv : ∀ t ∈ ts, t.1.valid t.2.1 ∧ t.2.2.length = t.1.M.ndx)
    (arg : ℤ) (ha : arg = 0 ∨ arg = 1) (qs : List (List ℝ × List ℝ))
    (hq : List.Forall₂ (fun t q => q.1.length = t.1.M.ndx ∧ q.2.length = t.1.M.ndx ∧ MovedIntegrate t.1.M t.2.1 t.2.2 arg q.1 q.2) ts qs) :
    MovedIntegrate (cartesianProduct (ts.map fun t => t.1.M)) (ts.map fun t => t.2.1).flatten (ts.map fun t => t.2.2).flatten arg
      (qs.map (·.1)).flatten (qs.map (·.2)).flatten := by
  obtain ⟨us, rfl, rfl, hu⟩ := forall2_zip hq
  have hL' : ∀ u ∈ us, Lawful u.1.1 := fun u hu => hL _ (List.mem_map_of_mem hu)
  have hv' : ∀ u ∈ us, u.1.1.valid u.1.2.1 ∧ u.1.2.2.length = u.1.1.M.ndx := fun u hu => hv _ (List.mem_map_of_mem hu)
  -- integration of a list of blocks
  have hint : ∀ a v b : Arg2 × List ℝ × List ℝ → List ℝ, (∀ u ∈ us, u.1.1.valid (a u)) → (∀ u ∈ us, (v u).length = u.1.1.M.ndx) →
      (∀ u ∈ us, IntTo u.1.1.M (a u) (v u) (b u)) →
      IntTo (cartesianProduct (us.map fun u => u.1.1.M)) (us.map a).flatten (us.map v).flatten (us.map b).flatten ∧ ∀ u ∈ us, u.1.1.valid (b u) := by
    intro a v b h1 h2 h3
    have hval : ∀ u ∈ us, u.1.1.valid (b u) := fun u h => intTo_valid (hL' u h) (h1 u h) (h2 u h) (h3 u h)
    have := product_intTo (us.map fun u => ⟨u.1.1.M, a u, v u, b u⟩) (by
      intro t ht
      obtain ⟨u, h, rfl⟩ := List.mem_map.1 ht
      exact ⟨(hL' u h).valid_len _ (h1 u h), h2 u h, (hL' u h).valid_len _ (hval u h), h3 u h⟩)
    exact ⟨by simpa [List.map_map, Function.comp_def] using this, hval⟩
  have hdif : ∀ a b : Arg2 × List ℝ × List ℝ → List ℝ, (∀ u ∈ us, u.1.1.valid (a u)) → (∀ u ∈ us, u.1.1.valid (b u)) →
      (∀ u ∈ us, DiffTo u.1.1.M (a u) (b u) u.2.2) →
      DiffTo (cartesianProduct (us.map fun u => u.1.1.M)) (us.map a).flatten (us.map b).flatten (us.map fun u => u.2.2).flatten := by
    intro a b h1 h2 h3
    have := product_diffTo (us.map fun u => ⟨u.1.1.M, a u, u.2.2, b u⟩) (by
      intro t ht
      obtain ⟨u, h, rfl⟩ := List.mem_map.1 ht
      exact ⟨(hL' u h).valid_len _ (h1 u h), (hL' u h).valid_len _ (h2 u h), (hu u h).2.1, h3 u h⟩)
    simpa [List.map_map, Function.comp_def] using this
  rcases ha with rfl | rfl
  · have : ∀ u, ∃ z w y, u ∈ us → IntTo u.1.1.M u.1.2.1 u.1.2.2 z ∧ IntTo u.1.1.M u.1.2.1 u.2.1 w ∧ IntTo u.1.1.M w u.1.2.2 y ∧
        DiffTo u.1.1.M z y u.2.2 := by
      intro u
      by_cases h : u ∈ us
      · rcases (hu u h).2.2 with ⟨-, z, w, y, h1⟩ | ⟨h0, -⟩
        · exact ⟨z, w, y, fun _ => h1⟩
        · exact absurd h0 (by decide)
      · exact ⟨[], [], [], fun h' => absurd h' h⟩
    choose z w y hy using this
    obtain ⟨i1, v1⟩ := hint (fun u => u.1.2.1) (fun u => u.1.2.2) z (fun u h => (hv' u h).1) (fun u h => (hv' u h).2) fun u h => (hy u h).1
    obtain ⟨i2, v2⟩ := hint (fun u => u.1.2.1) (fun u => u.2.1) w (fun u h => (hv' u h).1) (fun u h => (hu u h).1) fun u h => (hy u h).2.1
    obtain ⟨i3, v3⟩ := hint w (fun u => u.1.2.2) y v2 (fun u h => (hv' u h).2) fun u h => (hy u h).2.2.1
    refine Or.inl ⟨rfl, (us.map z).flatten, (us.map w).flatten, (us.map y).flatten, ?_, ?_, ?_, ?_⟩
    rotate_left 3
    · simpa [List.map_map, Function.comp_def] using hdif z y v1 v3 fun u h => (hy u h).2.2.2
    · simpa [List.map_map, Function.comp_def] using i1
    · simpa [List.map_map, Function.comp_def] using i2
    · simpa [List.map_map, Function.comp_def] using i3
  · have : ∀ u, ∃ z y, u ∈ us → IntTo u.1.1.M u.1.2.1 u.1.2.2 z ∧ IntTo u.1.1.M u.1.2.1 (List.zipWith (· + ·) u.1.2.2 u.2.1) y ∧
        DiffTo u.1.1.M z y u.2.2 := by
      intro u
      by_cases h : u ∈ us
      · rcases (hu u h).2.2 with ⟨h0, -⟩ | ⟨-, z, y, h1⟩
        · exact absurd h0 (by decide)
        · exact ⟨z, y, fun _ => h1⟩
      · exact ⟨[], [], fun h' => absurd h' h⟩
    choose z y hy using this
    obtain ⟨i1, v1⟩ := hint (fun u => u.1.2.1) (fun u => u.1.2.2) z (fun u h => (hv' u h).1) (fun u h => (hv' u h).2) fun u h => (hy u h).1
    obtain ⟨i2, v2⟩ := hint (fun u => u.1.2.1) (fun u => List.zipWith (· + ·) u.1.2.2 u.2.1) y (fun u h => (hv' u h).1)
      (fun u h => by simp [(hv' u h).2, (hu u h).1]) fun u h => (hy u h).2.1
    refine Or.inr ⟨rfl, (us.map z).flatten, (us.map y).flatten, ?_, ?_, ?_⟩
    rotate_left 2
    · simpa [List.map_map, Function.comp_def] using hdif z y v1 v2 fun u h => (hy u h).2.2
    · simpa [List.map_map, Function.comp_def] using i1
    · rw [← zipWith_flatten us (fun u => u.1.2.2) (fun u => u.2.1) fun u h => by rw [(hv' u h).2, (hu u h).1]] at i2
      simpa [List.map_map, Function.comp_def] using i2

theorem map_ndx (ts : List Arg2) : (cartesianProduct (ts.map fun t => t.1.M)).ndx = (ts.map fun t => t.1.M.ndx).sum := by
  rw [cartesianProduct_ndx, List.map_map]; rfl

/-- **C86, products**: if at the given components the Jacobians of the components are derivatives, so are the Jacobians of the
product, for any number of components (nested products included, as a product is again a manifold). -/
theorem C86_product (Ss : List (Space ℝ)) (hL : ∀ S ∈ Ss, Lawful S) (arg : ℤ) (ha : arg = 0 ∨ arg = 1) (bs : List (List ℝ × List ℝ)) :
    (List.Forall₂ (fun S b => S.valid b.1 ∧ S.valid b.2 ∧ TrueJdifference S.M b.1 b.2 arg) Ss bs →
      TrueJdifference (product Ss).M (bs.map (·.1)).flatten (bs.map (·.2)).flatten arg) ∧
    (List.Forall₂ (fun S b => S.valid b.1 ∧ b.2.length = S.M.ndx ∧ TrueJintegrate S.M b.1 b.2 arg) Ss bs →
      TrueJintegrate (product Ss).M (bs.map (·.1)).flatten (bs.map (·.2)).flatten arg) := by
  constructor
  · intro hb J
    obtain ⟨ts, rfl, rfl, ht⟩ := forall2_zip hb
    have hL' : ∀ t ∈ ts, Lawful t.1 := fun t h => hL _ (List.mem_map_of_mem h)
    have : ∀ t : Arg2, ∃ B, t ∈ ts → t.1.M.Jdifference t.2.1 t.2.2 (fun _ _ => 0) arg = .ok B ∧
        HasListJacobian t.1.M.ndx t.1.M.ndx (MovedDifference t.1.M t.2.1 t.2.2 arg) B := by
      intro t
      by_cases h : t ∈ ts
      · obtain ⟨B, h1⟩ := (ht t h).2.2 fun _ _ => 0
        exact ⟨B, fun _ => h1⟩
      · exact ⟨fun _ _ => 0, fun h' => absurd h' h⟩
    choose B hB using this
    have hj := (C44_jacobians_block_diagonal arg (ts.map fun t => ⟨t.1.M, t.2.1, t.2.2, B t⟩) J).2 (by
      intro t' ht'
      obtain ⟨t, h, rfl⟩ := List.mem_map.1 ht'
      exact ⟨(hL' t h).valid_len _ (ht t h).1, (hL' t h).valid_len _ (ht t h).2.1, (hB t h).1⟩)
    simp only [List.map_map, Function.comp_def] at hj
    refine ⟨_, by simpa only [product, List.map_map, Function.comp_def] using hj, ?_⟩
    have := HasListJacobian.flatten (fun t : Arg2 => t.1.M.ndx) (fun t => MovedDifference t.1.M t.2.1 t.2.2 arg) B ts fun t h => (hB t h).2
    have e : (product (ts.map (·.1))).M = cartesianProduct (ts.map fun t => t.1.M) := by simp [product, List.map_map, Function.comp_def]
    rw [e, map_ndx]
    refine this.mono ?_
    rintro d r - - ⟨qs, hq, rfl, rfl⟩
    simpa only [List.map_map, Function.comp_def] using
      product_moved_difference ts hL' (fun t h => ⟨(ht t h).1, (ht t h).2.1⟩) arg ha qs hq
  · intro hb J
    obtain ⟨ts, rfl, rfl, ht⟩ := forall2_zip hb
    have hL' : ∀ t ∈ ts, Lawful t.1 := fun t h => hL _ (List.mem_map_of_mem h)
    have : ∀ t : Arg2, ∃ B, t ∈ ts → t.1.M.Jintegrate t.2.1 t.2.2 (fun _ _ => 0) arg = .ok B ∧
        HasListJacobian t.1.M.ndx t.1.M.ndx (MovedIntegrate t.1.M t.2.1 t.2.2 arg) B := by
      intro t
      by_cases h : t ∈ ts
      · obtain ⟨B, h1⟩ := (ht t h).2.2 fun _ _ => 0
        exact ⟨B, fun _ => h1⟩
      · exact ⟨fun _ _ => 0, fun h' => absurd h' h⟩
    choose B hB using this
    have hj := (C44_jacobians_block_diagonal arg (ts.map fun t => ⟨t.1.M, t.2.1, t.2.2, B t⟩) J).1 (by
      intro t' ht'
      obtain ⟨t, h, rfl⟩ := List.mem_map.1 ht'
      exact ⟨(hL' t h).valid_len _ (ht t h).1, (ht t h).2.1, (hB t h).1⟩)
    simp only [List.map_map, Function.comp_def] at hj
    refine ⟨_, by simpa only [product, List.map_map, Function.comp_def] using hj, ?_⟩
    have := HasListJacobian.flatten (fun t : Arg2 => t.1.M.ndx) (fun t => MovedIntegrate t.1.M t.2.1 t.2.2 arg) B ts fun t h => (hB t h).2
    have e : (product (ts.map (·.1))).M = cartesianProduct (ts.map fun t => t.1.M) := by simp [product, List.map_map, Function.comp_def]
    rw [e, map_ndx]
    refine this.mono ?_
    rintro d r - - ⟨qs, hq, rfl, rfl⟩
    simpa only [List.map_map, Function.comp_def] using
      product_moved_integrate ts hL' (fun t h => ⟨(ht t h).1, (ht t h).2.1⟩) arg ha qs hq

/-! ### Tangent bundles -/

theorem vAdd_len {a b : List ℝ} {n : ℕ} (h1 : a.length = n) (h2 : b.length = n) : (vAdd a b).length = n := by simp [vAdd, h1, h2]

theorem vSub_len {a b : List ℝ} {n : ℕ} (h1 : a.length = n) (h2 : b.length = n) : (vSub a b).length = n := by simp [vSub, h1, h2]

theorem blockDiag_two (n : ℕ) (B C : ℕ → ℕ → ℝ) (i j : ℕ) (hi : i < n + n) (hj : j < n + n) {c : ℝ} (hc : C (i - n) (j - n) = c) :
    blockDiag [(n, B), (n, C)] i j = if i < n ∧ j < n then B i j else if n ≤ i ∧ n ≤ j then c else 0 := by
  simp only [blockDiag]
  by_cases h1 : i < n ∧ j < n
  · rw [if_pos h1, if_pos h1]
  · rw [if_neg h1, if_neg h1]
    by_cases h2 : n ≤ i ∧ n ≤ j
    · rw [if_pos h2, if_pos h2, if_pos (by omega), hc]
    · rw [if_neg h2, if_neg h2]

/-- **C86, tangent bundles**: if at the given base points the Jacobians of the base are derivatives, so are the Jacobians of the
tangent bundle, whatever the tangent parts are. -/
theorem C86_bundle (S : Space ℝ) (hL : Lawful S) (arg : ℤ) (ha : arg = 0 ∨ arg = 1) (p q t t' : List ℝ) (hp : S.valid p)
    (ht : t.length = S.M.ndx) (ht' : t'.length = S.M.ndx) :
    (S.valid q → TrueJdifference S.M p q arg → TrueJdifference (bundle S).M (p ++ t) (q ++ t') arg) ∧
    (q.length = S.M.ndx → TrueJintegrate S.M p q arg → TrueJintegrate (bundle S).M (p ++ t) (q ++ t') arg) := by
  have hpl := hL.valid_len p hp
  have hnd : (bundle S).M.ndx = S.M.ndx + S.M.ndx := by show 2 * S.M.ndx = _; omega
  have hval : ∀ {x v y}, S.valid x → v.length = S.M.ndx → IntTo S.M x v y → y.length = S.M.nx := fun hx hv hy =>
    hL.valid_len _ (intTo_valid hL hx hv hy)
  constructor
  · intro hq h J
    have hql := hL.valid_len q hq
    obtain ⟨B, hB, hJ⟩ := h fun _ _ => 0
    obtain ⟨-, k0, k1, -, -⟩ := C48_jacobians S.M p t q t' J B arg hpl
    rw [hnd]
    rcases ha with rfl | rfl
    · refine ⟨_, k0 hql hB rfl, ?_⟩
      refine ((hJ.append (HasListJacobian.affine S.M.ndx (vSub t' t) (vSub_len ht' ht) (-1))).mono ?_).congr ?_
      · rintro d r - - ⟨d1, d2, r1, r2, l1, l2, l3, l4, h0 | ⟨h0, -⟩, rfl, rfl, rfl⟩
        · obtain ⟨-, y, hy, hd⟩ := h0
          refine Or.inl ⟨rfl, _, bundle_intTo S.M p t d1 d2 y hpl ht l1 l2 (hval hp l1 hy) hy, ?_⟩
          have e : List.zipWith (fun a b => a + -1 * b) (vSub t' t) d2 = vSub t' (vAdd t d2) := by
            apply List.ext_getElem
            · simp [vSub, vAdd, ht, ht', l2]
            · intro i h1 h2; simp [vSub, vAdd]; ring
          rw [e]
          exact bundle_diffTo S.M y _ q t' r1 (hval hp l1 hy) (vAdd_len ht l2) hql ht' l3 hd
        · exact absurd h0 (by decide)
      · intro i j hi hj
        refine (blockDiag_two _ B _ i j hi hj ?_).symm
        by_cases h3 : i - S.M.ndx = j - S.M.ndx <;> simp [idMat, h3]
    · refine ⟨_, k1 hql hB rfl, ?_⟩
      refine ((hJ.append (HasListJacobian.affine S.M.ndx (vSub t' t) (vSub_len ht' ht) 1)).mono ?_).congr ?_
      · rintro d r - - ⟨d1, d2, r1, r2, l1, l2, l3, l4, ⟨h0, -⟩ | h0, rfl, rfl, rfl⟩
        · exact absurd h0 (by decide)
        · obtain ⟨-, y, hy, hd⟩ := h0
          refine Or.inr ⟨rfl, _, bundle_intTo S.M q t' d1 d2 y hql ht' l1 l2 (hval hq l1 hy) hy, ?_⟩
          have e : List.zipWith (fun a b => a + 1 * b) (vSub t' t) d2 = vSub (vAdd t' d2) t := by
            apply List.ext_getElem
            · simp [vSub, vAdd, ht, ht', l2]
            · intro i h1 h2; simp [vSub, vAdd]; ring
          rw [e]
          exact bundle_diffTo S.M p t y _ r1 hpl ht (hval hq l1 hy) (vAdd_len ht' l2) l3 hd
      · intro i j hi hj
        refine (blockDiag_two _ B _ i j hi hj ?_).symm
        by_cases h3 : i - S.M.ndx = j - S.M.ndx <;> simp [idMat, h3]
  · intro hq h J
    obtain ⟨B, hB, hJ⟩ := h fun _ _ => 0
    obtain ⟨k0, -, -, -, -⟩ := C48_jacobians S.M p t q t' J B arg hpl
    rw [hnd]
    refine ⟨_, k0 hq hB, ?_⟩
    refine ((hJ.append (HasListJacobian.affine S.M.ndx (List.replicate S.M.ndx 0) (by simp) 1)).mono ?_).congr ?_
    · rintro d r - - ⟨d1, d2, r1, r2, l1, l2, l3, l4, h0, rfl, rfl, rfl⟩
      rcases h0 with ⟨rfl, z, w, y, hz, hw, hy, hd⟩ | ⟨rfl, z, y, hz, hy, hd⟩
      · have vw := intTo_valid hL hp l1 hw
        refine Or.inl ⟨rfl, _, _, _, bundle_intTo S.M p t q t' z hpl ht hq ht' (hval hp hq hz) hz,
          bundle_intTo S.M p t d1 d2 w hpl ht l1 l2 (hval hp l1 hw) hw,
          bundle_intTo S.M w _ q t' y (hL.valid_len _ vw) (vAdd_len ht l2) hq ht' (hval vw hq hy) hy, ?_⟩
        have e : List.zipWith (fun a b => a + 1 * b) (List.replicate S.M.ndx 0) d2 = vSub (vAdd (vAdd t d2) t') (vAdd t t') := by
          apply List.ext_getElem
          · simp [vSub, vAdd, ht, ht', l2]
          · intro i h1 h2; simp [vSub, vAdd]
        rw [e]
        exact bundle_diffTo S.M z _ y _ r1 (hval hp hq hz) (vAdd_len ht ht') (hval vw hq hy) (vAdd_len (vAdd_len ht l2) ht') l3 hd
      · have lq : (List.zipWith (· + ·) q d1).length = S.M.ndx := by simp [hq, l1]
        have e : List.zipWith (fun a b => a + 1 * b) (List.replicate S.M.ndx 0) d2 = vSub (vAdd t (vAdd t' d2)) (vAdd t t') := by
          apply List.ext_getElem
          · simp [vSub, vAdd, ht, ht', l2]
          · intro i h1 h2; simp [vSub, vAdd]
        refine Or.inr ⟨rfl, _, y ++ vAdd t (vAdd t' d2), bundle_intTo S.M p t q t' z hpl ht hq ht' (hval hp hq hz) hz, ?_, ?_⟩
        · rw [List.zipWith_append (by rw [hq, l1])]
          exact bundle_intTo S.M p t _ (vAdd t' d2) y hpl ht lq (vAdd_len ht' l2) (hval hp lq hy) hy
        · rw [e]
          exact bundle_diffTo S.M z (vAdd t t') y (vAdd t (vAdd t' d2)) r1 (hval hp hq hz) (vAdd_len ht ht') (hval hp lq hy)
            (vAdd_len ht (vAdd_len ht' l2)) l3 hd
    · intro i j hi hj
      refine (blockDiag_two _ B _ i j hi hj ?_).symm
      by_cases h3 : i - S.M.ndx = j - S.M.ndx <;> simp [idMat, h3]

/-- C86 is not vacuous: at every pair of points of the tangent bundle of `R^1 × R^2`, both Jacobians are derivatives. -/
example (arg : ℤ) (ha : arg = 0 ∨ arg = 1) (a b c d t t' : List ℝ) (h1 : a.length = 1) (h2 : b.length = 2) (h3 : c.length = 1)
    (h4 : d.length = 2) (h5 : t.length = 3) (h6 : t'.length = 3) :
    TrueJdifference (bundle (product [Spec.vectorSpace 1, Spec.vectorSpace 2])).M ((a ++ b) ++ t) ((c ++ d) ++ t') arg ∧
    TrueJintegrate (bundle (product [Spec.vectorSpace 1, Spec.vectorSpace 2])).M ((a ++ b) ++ t) ((c ++ d) ++ t') arg := by
  have hL : ∀ S ∈ ([Spec.vectorSpace 1, Spec.vectorSpace 2] : List (Space ℝ)), Lawful S := by
    intro S hS
    simp only [List.mem_cons, List.not_mem_nil, or_false] at hS
    rcases hS with rfl | rfl <;> exact C43_vector_space_laws _
  have hp := C86_product [Spec.vectorSpace 1, Spec.vectorSpace 2] hL arg ha [(a, c), (b, d)]
  have hb := C86_bundle _ (C44_product_laws _ hL) arg ha (a ++ b) (c ++ d) t t' ⟨[a, b], .cons h1 (.cons h2 .nil), by simp⟩ h5 h6
  refine ⟨hb.1 ⟨[c, d], .cons h3 (.cons h4 .nil), by simp⟩ ?_, hb.2 ?_ ?_⟩
  · simpa using hp.1 (.cons ⟨h1, h3, (C86_vector_space 1 a c h1 h3 arg ha).1⟩ (.cons ⟨h2, h4, (C86_vector_space 2 b d h2 h4 arg ha).1⟩ .nil))
  · show (c ++ d).length = 3
    simp [h3, h4]
  · simpa using hp.2 (.cons ⟨h1, h3, (C86_vector_space 1 a c h1 h3 arg ha).2⟩ (.cons ⟨h2, h4, (C86_vector_space 2 b d h2 h4 arg ha).2⟩ .nil))

end ProxNLP
