import Verif.Spec.LieGroup
import Verif.Props.TangentBundle
import Mathlib.Algebra.BigOperators.Intervals
import Mathlib.Tactic.Ring

/-! Property theorems for C88: transport multiplies by the Jacobian of `integrate`. -/

set_option linter.unusedSectionVars false
namespace ProxNLP

open Spec

variable {K : Type} [Field K]

theorem sum_range_split (n m : ℕ) (f : ℕ → K) :
    ∑ k ∈ Finset.range (n + m), f k = ∑ k ∈ Finset.range n, f k + ∑ k ∈ Finset.range m, f (n + k) := Finset.sum_range_add f n m

/-- one row of a block-diagonal matrix times a vector -/
theorem blockDiag_row {T : Type} (n : T → ℕ) (B : T → ℕ → ℕ → K) (pre : List T) (t : T) (post : List T) (i : ℕ) (hi : i < n t) (f : ℕ → K) :
    ∑ k ∈ Finset.range ((pre ++ t :: post).map n).sum,
        blockDiag ((pre ++ t :: post).map fun t => (n t, B t)) ((pre.map n).sum + i) k * f k =
      ∑ k ∈ Finset.range (n t), B t i k * f ((pre.map n).sum + k) := by
  induction pre generalizing f with
  | nil =>
    simp only [List.nil_append, List.map_cons, List.sum_cons, List.map_nil, List.sum_nil, Nat.zero_add]
    rw [sum_range_split, ← add_zero (∑ k ∈ Finset.range (n t), B t i k * f k)]
    congr 1
    · refine Finset.sum_congr rfl fun k hk => ?_
      rw [blockDiag, if_pos ⟨hi, Finset.mem_range.1 hk⟩]
    · refine Finset.sum_eq_zero fun k _ => ?_
      rw [blockDiag, if_neg (by omega), if_neg (by omega), zero_mul]
  | cons p pre ih =>
    simp only [List.cons_append, List.map_cons, List.sum_cons]
    rw [sum_range_split, Finset.sum_eq_zero, zero_add]
    · have := ih fun k => f (n p + k)
      simp only [Nat.add_assoc] at this ⊢
      rw [← this]
      refine Finset.sum_congr rfl fun k _ => ?_
      rw [blockDiag, if_neg (by omega), if_pos (by omega), Nat.add_sub_cancel_left, Nat.add_sub_cancel_left]
    · intro k hk
      have := Finset.mem_range.1 hk
      rw [blockDiag, if_neg (by omega), if_neg (by omega), zero_mul]

/-- every index of a concatenation lies in one of the blocks -/
theorem exists_blockDiag_block {T : Type} (n : T → ℕ) (ts : List T) (i : ℕ) (hi : i < (ts.map n).sum) :
    ∃ pre t post i', ts = pre ++ t :: post ∧ i' < n t ∧ i = (pre.map n).sum + i' := by
  induction ts generalizing i with
  | nil => simp at hi
  | cons t ts ih =>
    by_cases h : i < n t
    · exact ⟨[], t, ts, i, rfl, h, by simp⟩
    · obtain ⟨pre, t', post, i', h1, h2, h3⟩ := ih (i - n t) (by simp only [List.map_cons, List.sum_cons] at hi; omega)
      exact ⟨t :: pre, t', post, i', by rw [h1]; rfl, h2, by simp only [List.map_cons, List.sum_cons]; omega⟩

/-- **C88, vector spaces** -/
theorem C88_vector_space (n : ℕ) (x v : List K) (arg : ℤ) : TransportIsProduct (ProxNLP.vectorSpace n) x v arg := by
  intro J0 J
  refine ⟨idMat, J, rfl, rfl, fun i j hi => ?_⟩
  have hi' : i < n := hi
  simp [idMat, ProxNLP.vectorSpace, hi']

/-- **C88, products**: if transport multiplies by the Jacobian in each component then it does so on the product. -/
theorem C88_product (Ms : List (Manifold K)) (bs : List (List K × List K)) (arg : ℤ)
    (h : List.Forall₂ (fun M b => b.1.length = M.nx ∧ b.2.length = M.ndx ∧ TransportIsProduct M b.1 b.2 arg) Ms bs) :
    TransportIsProduct (cartesianProduct Ms) (bs.map (·.1)).flatten (bs.map (·.2)).flatten arg := by
  intro J0 J
  have hz : ∃ us : List (Manifold K × List K × List K), Ms = us.map (·.1) ∧ bs = us.map (·.2) ∧
      ∀ u ∈ us, u.2.1.length = u.1.nx ∧ u.2.2.length = u.1.ndx ∧ TransportIsProduct u.1 u.2.1 u.2.2 arg := by
    clear J0 J
    induction h with
    | nil => exact ⟨[], rfl, rfl, by simp⟩
    | @cons M b Ms bs hb _ ih =>
      obtain ⟨us, rfl, rfl, hu⟩ := ih
      refine ⟨(M, b) :: us, rfl, rfl, ?_⟩
      intro u hu'
      rcases List.mem_cons.1 hu' with rfl | hu'
      · exact hb
      · exact hu u hu'
  obtain ⟨us, rfl, rfl, hu⟩ := hz
  clear h
  have hB : ∀ u : Manifold K × List K × List K, ∃ B, u ∈ us → u.1.Jintegrate u.2.1 u.2.2 (fun _ _ => 0) arg = .ok B := by
    intro u
    by_cases h : u ∈ us
    · obtain ⟨B, R, hB, -, -⟩ := (hu u h).2.2 (fun _ _ => 0) (fun _ _ => 0)
      exact ⟨B, fun _ => hB⟩
    · exact ⟨fun _ _ => 0, fun h' => absurd h' h⟩
  choose B hB using hB
  have hT : ∀ (u : Manifold K × List K × List K) (J : ℕ → ℕ → K), ∃ R, u ∈ us → u.1.transport u.2.1 u.2.2 J arg = .ok R ∧
      ∀ i j, i < u.1.ndx → R i j = ∑ k ∈ Finset.range u.1.ndx, B u i k * J k j := by
    intro u J
    by_cases h : u ∈ us
    · obtain ⟨B', R, hB', hR, hr⟩ := (hu u h).2.2 (fun _ _ => 0) J
      have : B' = B u := by
        have := hB u h
        rw [hB'] at this
        exact Except.ok.inj this
      exact ⟨R, fun _ => ⟨hR, this ▸ hr⟩⟩
    · exact ⟨J, fun h' => absurd h' h⟩
  choose T hT using hT
  have k1 := (C44_jacobians_block_diagonal arg (us.map fun u => (⟨u.1, u.2.1, u.2.2, B u⟩ : JBlk K)) J0).1 (by
    intro t ht
    obtain ⟨u, hu', rfl⟩ := List.mem_map.1 ht
    exact ⟨(hu u hu').1, (hu u hu').2.1, hB u hu'⟩)
  obtain ⟨R, k2, -, k3⟩ := C74_transport_blockwise arg (us.map fun u => (⟨u.1, u.2.1, u.2.2, T u⟩ : TBlk K)) J (by
    intro t ht
    obtain ⟨u, hu', rfl⟩ := List.mem_map.1 ht
    exact ⟨(hu u hu').1, (hu u hu').2.1, fun J => (hT u J hu').1⟩)
  simp only [List.map_map, Function.comp_def] at k1 k2 ⊢
  refine ⟨_, R, k1, k2, fun i j hi => ?_⟩
  have hnd : (cartesianProduct (us.map fun u => u.1)).ndx = (us.map fun u => u.1.ndx).sum := by
    show prodNdx _ = _
    rw [prodNdx_eq, List.map_map]
    rfl
  rw [hnd] at hi ⊢
  obtain ⟨pre, u, post, i', rfl, hi', rfl⟩ := exists_blockDiag_block (fun u : Manifold K × List K × List K => u.1.ndx) us i hi
  rw [blockDiag_row (fun u : Manifold K × List K × List K => u.1.ndx) B pre u post i' hi' fun k => J k j]
  have := k3 (pre.map fun u => ⟨u.1, u.2.1, u.2.2, T u⟩) ⟨u.1, u.2.1, u.2.2, T u⟩ (post.map fun u => ⟨u.1, u.2.1, u.2.2, T u⟩) (by simp) i' j hi'
  simp only [List.map_map, Function.comp_def] at this
  rw [this]
  exact (hT u _ (by simp)).2 i' j hi'

/-- **C88, tangent bundles** -/
theorem C88_bundle (B : Manifold K) (p t dp dt : List K) (arg : ℤ) (hp : p.length = B.nx) (hdp : dp.length = B.ndx)
    (h : TransportIsProduct B p dp arg) : TransportIsProduct (tangentBundle B) (p ++ t) (dp ++ dt) arg := by
  intro J0 J
  obtain ⟨Jb, R, h1, h2, h3⟩ := h (fun _ _ => 0) J
  obtain ⟨R', k1, k2, k3⟩ := C74_bundle_transport B p t dp dt J R arg hp hdp h2
  refine ⟨_, R', (C48_jacobians B p t dp dt J0 Jb arg hp).1 hdp h1, k1, fun i j hi => ?_⟩
  have hnd : (tangentBundle B).ndx = B.ndx + B.ndx := by show 2 * B.ndx = _; omega
  rw [hnd] at hi ⊢
  rw [sum_range_split]
  by_cases hlt : i < B.ndx
  · rw [k2 i j hlt, h3 i j hlt, ← add_zero (∑ k ∈ Finset.range B.ndx, Jb i k * J k j)]
    congr 1
    · refine Finset.sum_congr rfl fun k hk => ?_
      rw [blockDiag, if_pos ⟨hlt, Finset.mem_range.1 hk⟩]
    · refine (Finset.sum_eq_zero fun k _ => ?_).symm
      rw [blockDiag, if_neg (by omega), if_neg (by omega), zero_mul]
  · rw [k3 i j (by omega), Finset.sum_eq_zero (s := Finset.range B.ndx), zero_add, Finset.sum_eq_single (i - B.ndx)]
    · rw [blockDiag, if_neg (by omega), if_pos (by omega), blockDiag, if_pos (by omega)]
      simp only [idMat, Nat.add_sub_cancel_left, if_true, one_mul]
      congr 1
      omega
    · intro k hk hne
      have := Finset.mem_range.1 hk
      rw [blockDiag, if_neg (by omega), if_pos (by omega), blockDiag, if_pos (by omega), idMat, if_neg (by omega), zero_mul]
    · intro hk
      rw [Finset.mem_range] at hk
      omega
    · intro k hk
      have := Finset.mem_range.1 hk
      rw [blockDiag, if_neg (by omega), if_neg (by omega), zero_mul]

/-- C88 holds at every point of the tangent bundle of `R^1 × R^2`. -/
example (a b c d t t' : List ℚ) (h1 : a.length = 1) (h2 : b.length = 2) (h3 : c.length = 1) (h4 : d.length = 2) (arg : ℤ) :
    TransportIsProduct (tangentBundle (cartesianProduct [ProxNLP.vectorSpace 1, ProxNLP.vectorSpace 2])) ((a ++ b) ++ t) ((c ++ d) ++ t') arg := by
  refine C88_bundle _ _ _ _ _ arg (by show _ = 3; simp [h1, h2]) (by show _ = 3; simp [h3, h4]) ?_
  have := C88_product [ProxNLP.vectorSpace 1, ProxNLP.vectorSpace 2] [(a, c), (b, d)] arg
    (.cons ⟨h1, h3, C88_vector_space 1 a c arg⟩ (.cons ⟨h2, h4, C88_vector_space 2 b d arg⟩ .nil))
  simpa using this

end ProxNLP
