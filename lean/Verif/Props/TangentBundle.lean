import Verif.Props.ManifoldOps

/-! Property theorems for C48, C49 (tangent bundles) and C74 (transport). -/

set_option linter.unusedSectionVars false
namespace ProxNLP

open Spec

variable {K : Type} [Field K]

theorem headSeg_app (p t : List K) (n : ℕ) (h : p.length = n) : headSeg (p ++ t) n = .ok p := by
  have := segment_mid' [] p t 0 n rfl h.symm
  exact this

theorem tailSeg_app (p t : List K) (n : ℕ) (h : t.length = n) : tailSeg (p ++ t) n = .ok t := by
  unfold tailSeg
  rw [if_pos (by simp; omega)]
  have : (p ++ t).length - n = p.length := by simp; omega
  rw [this, List.drop_left]

theorem setHead_app (p t r : List K) (h : r.length = p.length) : setSegment (p ++ t) 0 r = .ok (r ++ t) := by
  have := setSegment_mid' [] p t r 0 rfl h
  exact this

theorem setTail_app (p t r : List K) (n : ℕ) (ht : t.length = n) (h : r.length = n) : setTail (p ++ t) n r = .ok (p ++ r) := by
  unfold setTail
  rw [if_pos ⟨by simp; omega, h⟩]
  have : (p ++ t).length - n = p.length := by simp; omega
  rw [this, List.take_left]

theorem bundle_intTo (B : Manifold K) (p t dp dt q : List K) (hp : p.length = B.nx) (ht : t.length = B.ndx) (hdp : dp.length = B.ndx)
    (hdt : dt.length = B.ndx) (hq : q.length = B.nx) (h : IntTo B p dp q) :
    IntTo (tangentBundle B) (p ++ t) (dp ++ dt) (q ++ vAdd t dt) := by
  intro out ho
  simp only [tangentBundle] at ho
  obtain ⟨o1, o2, rfl, ho1, ho2⟩ := exists_split out _ _ ho
  simp only [tangentBundle, headSeg_app p t _ hp, headSeg_app dp dt _ hdp, headSeg_app o1 o2 _ ho1, tailSeg_app p t _ ht,
    tailSeg_app dp dt _ hdt, bind, Except.bind, h o1 ho1, setHead_app o1 o2 q (by omega)]
  exact setTail_app q o2 _ _ ho2 (by rw [vAdd_length]; omega)

theorem bundle_diffTo (B : Manifold K) (p t p' t' d : List K) (hp : p.length = B.nx) (ht : t.length = B.ndx) (hp' : p'.length = B.nx)
    (ht' : t'.length = B.ndx) (hd : d.length = B.ndx) (h : DiffTo B p p' d) :
    DiffTo (tangentBundle B) (p ++ t) (p' ++ t') (d ++ vSub t' t) := by
  intro out ho
  simp only [tangentBundle] at ho
  obtain ⟨o1, o2, rfl, ho1, ho2⟩ := exists_split out B.ndx B.ndx (by omega)
  have hlen : ¬((o1 ++ o2).length ≠ 2 * B.ndx) := by simp only [ne_eq, not_not]; exact ho
  simp only [tangentBundle, bind, Except.bind]
  rw [if_neg hlen]
  simp only [headSeg_app p t _ hp, headSeg_app p' t' _ hp', headSeg_app o1 o2 _ ho1, tailSeg_app p t _ ht,
    tailSeg_app p' t' _ ht', pure, Except.pure, h o1 ho1, setHead_app o1 o2 d (by omega)]
  exact setTail_app d o2 _ _ ho2 (by rw [vSub_length]; omega)

/-- **C48, dimensions**. -/
theorem C48_dims (B : Manifold K) : (tangentBundle B).nx = B.nx + B.ndx ∧ (tangentBundle B).ndx = 2 * B.ndx := ⟨rfl, rfl⟩

/-- **C48, laws**: the tangent bundle of a lawful manifold is lawful; its points are all pairs of a point and a tangent
vector, and its domain all pairs of a vector of the base domain and a tangent vector. -/
theorem C48_bundle_laws (S : Space K) (h : Lawful S) : Lawful (bundle S) where
  valid_len := by
    rintro x ⟨p, t, hp, ht, rfl⟩
    simp [bundle, tangentBundle, h.valid_len p hp, ht]
  dom_len := by
    rintro x v ⟨p, t, dp, dt, hp, ht, -, hdp, hdt, rfl⟩
    simp only [bundle, tangentBundle, List.length_append, h.dom_len p dp hdp, hdt]
    omega
  neutral := by
    obtain ⟨e, he, hv⟩ := h.neutral
    have hl := h.valid_len e hv
    refine ⟨e ++ List.replicate S.M.ndx 0, ?_, e, _, hv, by simp, rfl⟩
    simp only [bundle, tangentBundle, he, bind, Except.bind]
    rw [if_neg (by simpa using hl), List.replicate_add]
    exact setHead_app _ _ e (by simp [hl])
  integrate_valid := by
    rintro x v ⟨p, t, hp, ht, rfl⟩ hv
    obtain ⟨dp, dt, rfl, hdp, hdt⟩ := exists_split v S.M.ndx S.M.ndx (by simp only [bundle, tangentBundle] at hv; omega)
    obtain ⟨q, hq, hi⟩ := h.integrate_valid p dp hp hdp
    exact ⟨q ++ vAdd t dt, ⟨q, _, hq, by rw [vAdd_length]; omega, rfl⟩,
      bundle_intTo S.M p t dp dt q (h.valid_len p hp) ht hdp hdt (h.valid_len q hq) hi⟩
  difference_len := by
    rintro x y ⟨p, t, hp, ht, rfl⟩ ⟨p', t', hp', ht', rfl⟩
    obtain ⟨d, hd, hdt⟩ := h.difference_len p p' hp hp'
    exact ⟨d ++ vSub t' t, by simp only [bundle, tangentBundle, List.length_append, hd, vSub_length]; omega,
      bundle_diffTo S.M p t p' t' d (h.valid_len p hp) ht (h.valid_len p' hp') ht' hd hdt⟩
  integrate_zero := by
    rintro x ⟨p, t, hp, ht, rfl⟩
    have := bundle_intTo S.M p t _ (List.replicate S.M.ndx 0) p (h.valid_len p hp) ht (by simp) (by simp) (h.valid_len p hp)
      (h.integrate_zero p hp)
    rw [← ht, vAdd_zero, ht, ← List.replicate_add, ← two_mul] at this
    exact this
  difference_self := by
    rintro x ⟨p, t, hp, ht, rfl⟩
    have := bundle_diffTo S.M p t p t _ (h.valid_len p hp) ht (h.valid_len p hp) ht (by simp) (h.difference_self p hp)
    rw [vSub_self, ht, ← List.replicate_add, ← two_mul] at this
    exact this
  integrate_difference := by
    rintro x y d ⟨p, t, hp, ht, rfl⟩ ⟨p', t', hp', ht', rfl⟩ hd
    obtain ⟨db, hdb, hdt⟩ := h.difference_len p p' hp hp'
    have h1 := bundle_diffTo S.M p t p' t' db (h.valid_len p hp) ht (h.valid_len p' hp') ht' hdb hdt
    rw [diffTo_unique hd h1]
    have h2 := bundle_intTo S.M p t db (vSub t' t) p' (h.valid_len p hp) ht hdb (by rw [vSub_length]; omega)
      (h.valid_len p' hp') (h.integrate_difference p p' db hp hp' hdt)
    rw [vAdd_vSub t t' (by omega)] at h2
    exact h2
  difference_integrate := by
    rintro x v y - ⟨p, t, dp, dt, hp, ht, rfl, hdp, hdt, rfl⟩ hy
    obtain ⟨q, hq, hi⟩ := h.integrate_valid p dp hp (h.dom_len p dp hdp)
    have h1 := bundle_intTo S.M p t dp dt q (h.valid_len p hp) ht (h.dom_len p dp hdp) hdt (h.valid_len q hq) hi
    rw [intTo_unique hy h1]
    have h2 := bundle_diffTo S.M p t q (vAdd t dt) dp (h.valid_len p hp) ht (h.valid_len q hq) (by rw [vAdd_length]; omega)
      (h.dom_len p dp hdp) (h.difference_integrate p dp q hp hdp hi)
    rw [vSub_vAdd t dt (by omega)] at h2
    exact h2

/-- **C48, Jacobians**: block-diagonal, the base Jacobian and plus or minus the identity, whatever the output matrix
contained; on arguments the base rejects, the bundle fails alike. -/
theorem C48_jacobians (B : Manifold K) (p t dp dt : List K) (J Jb : ℕ → ℕ → K) (arg : ℤ) (hp : p.length = B.nx) :
    (dp.length = B.ndx → B.Jintegrate p dp (fun _ _ => 0) arg = .ok Jb →
      (tangentBundle B).Jintegrate (p ++ t) (dp ++ dt) J arg = .ok (blockDiag [(B.ndx, Jb), (B.ndx, idMat)])) ∧
    (dp.length = B.nx → B.Jdifference p dp (fun _ _ => 0) arg = .ok Jb → arg = 0 →
      (tangentBundle B).Jdifference (p ++ t) (dp ++ dt) J arg = .ok (blockDiag [(B.ndx, Jb), (B.ndx, fun i j => -idMat i j)])) ∧
    (dp.length = B.nx → B.Jdifference p dp (fun _ _ => 0) arg = .ok Jb → arg = 1 →
      (tangentBundle B).Jdifference (p ++ t) (dp ++ dt) J arg = .ok (blockDiag [(B.ndx, Jb), (B.ndx, idMat)])) ∧
    (dp.length = B.ndx → ∀ e, B.Jintegrate p dp (fun _ _ => 0) arg = .error e →
      (tangentBundle B).Jintegrate (p ++ t) (dp ++ dt) J arg = .error e) ∧
    (dp.length = B.nx → ∀ e, B.Jdifference p dp (fun _ _ => 0) arg = .error e →
      (tangentBundle B).Jdifference (p ++ t) (dp ++ dt) J arg = .error e) := by
  have key : ∀ (C : ℕ → ℕ → K), setBlock (setBlock (fun _ _ => 0) 0 B.ndx Jb) B.ndx B.ndx C = blockDiag [(B.ndx, Jb), (B.ndx, C)] := by
    intro C
    funext i j
    simp only [setBlock, blockDiag, Nat.zero_le, true_and, Nat.zero_add, Nat.sub_zero]
    by_cases h1 : i < B.ndx ∧ j < B.ndx
    · rw [if_neg (by omega), if_pos h1, if_pos h1]
    · rw [if_neg h1, if_neg h1]
      by_cases h2 : B.ndx ≤ i ∧ B.ndx ≤ j
      · rw [if_pos h2]
        by_cases h3 : i - B.ndx < B.ndx ∧ j - B.ndx < B.ndx
        · rw [if_pos (by omega), if_pos h3]
        · rw [if_neg (by omega), if_neg h3]; simp
      · rw [if_neg h2, if_neg (by omega)]
  refine ⟨?_, ?_, ?_, ?_, ?_⟩
  · intro hdp hB
    simp only [tangentBundle, headSeg_app p t _ hp, headSeg_app dp dt _ hdp, bind, Except.bind, hB, pure, Except.pure, key]
  · rintro hdp hB rfl
    simp only [tangentBundle, headSeg_app p t _ hp, headSeg_app dp dt _ hdp, bind, Except.bind, hB, pure, Except.pure]
    rw [if_pos trivial, key]
  · rintro hdp hB rfl
    simp only [tangentBundle, headSeg_app p t _ hp, headSeg_app dp dt _ hdp, bind, Except.bind, hB, pure, Except.pure]
    rw [if_neg (by decide), if_pos trivial, key]
  · intro hdp e hB
    simp only [tangentBundle, headSeg_app p t _ hp, headSeg_app dp dt _ hdp, bind, Except.bind, hB]
  · intro hdp e hB
    simp only [tangentBundle, headSeg_app p t _ hp, headSeg_app dp dt _ hdp, bind, Except.bind, hB]

/-- C48 is not vacuous: the tangent bundle of `R^1 × R^2` (and the tangent bundle of that bundle). -/
example : Lawful (bundle (bundle (product Demo.r12)) : Space ℚ) ∧
    (bundle (product Demo.r12)).valid [1, 2, 3, 4, 5, 6] ∧
    (bundle (product Demo.r12)).M.integrate [1, 2, 3, 4, 5, 6] [1, 0, 1, 0, 0, 2] [0, 0, 0, 0, 0, 0] = .ok [2, 2, 4, 4, 5, 8] := by
  refine ⟨C48_bundle_laws _ (C48_bundle_laws _ (C44_product_laws _ ?_)),
    ⟨[1, 2, 3], [4, 5, 6], ⟨[[1], [2, 3]], .cons rfl (.cons rfl .nil), rfl⟩, rfl, rfl⟩, by decide +kernel⟩
  intro S hS
  simp only [Demo.r12, List.mem_cons, List.not_mem_nil, or_false] at hS
  rcases hS with rfl | rfl <;> exact C43_vector_space_laws _

/-! ### C49 -/

theorem bundle_interpTo (B : Manifold K) (p t p' t' r : List K) (u : K) (hp : p.length = B.nx) (ht : t.length = B.ndx)
    (hp' : p'.length = B.nx) (ht' : t'.length = B.ndx) (hr : r.length = B.nx) (h : InterpTo B p p' u r) :
    InterpTo (tangentBundle B) (p ++ t) (p' ++ t') u
      (r ++ vAdd (vScale (1 - u) ((p ++ t).take B.ndx)) (vScale u ((p' ++ t').take B.ndx))) := by
  intro out ho
  simp only [tangentBundle] at ho
  obtain ⟨o1, o2, rfl, ho1, ho2⟩ := exists_split out _ _ ho
  have hh : ∀ a b : List K, b.length = B.ndx → headSeg (a ++ b) B.ndx = .ok ((a ++ b).take B.ndx) := by
    intro a b hb
    unfold headSeg segment
    rw [if_pos (by simp; omega), List.drop_zero]
  simp only [tangentBundle, headSeg_app p t _ hp, headSeg_app p' t' _ hp', headSeg_app o1 o2 _ ho1, bind, Except.bind, h o1 ho1,
    setHead_app o1 o2 r (by omega), hh p t ht, hh p' t' ht']
  refine setTail_app r o2 _ _ ho2 ?_
  rw [vAdd_length]
  simp only [vScale, List.length_map, List.length_take, List.length_append]
  omega

/-- **C49, proved part**: if interpolation on the base joins the base points, the base part of interpolation on the bundle
does; the whole of it does exactly when the first `ndx` coordinates of each end point coincide with its tangent part. -/
theorem C49_interpolation_partial (S : Space K) (hS : Lawful S) (hj : Joins S) (p t p' t' : List K) (hp : S.valid p)
    (ht : t.length = S.M.ndx) (hp' : S.valid p') (ht' : t'.length = S.M.ndx) :
    ∃ z0 z1, InterpTo (bundle S).M (p ++ t) (p' ++ t') 0 z0 ∧ InterpTo (bundle S).M (p ++ t) (p' ++ t') 1 z1 ∧
      z0.take S.M.nx = p ∧ z1.take S.M.nx = p' ∧ (z0 = p ++ t ↔ (p ++ t).take S.M.ndx = t) ∧
      (z1 = p' ++ t' ↔ (p' ++ t').take S.M.ndx = t') := by
  obtain ⟨j0, j1⟩ := hj p p' hp hp'
  have lp := hS.valid_len p hp
  have lp' := hS.valid_len p' hp'
  have l1 : ((p ++ t).take S.M.ndx).length = ((p' ++ t').take S.M.ndx).length := by simp; omega
  have h0 := bundle_interpTo S.M p t p' t' p 0 lp ht lp' ht' lp j0
  have h1 := bundle_interpTo S.M p t p' t' p' 1 lp ht lp' ht' lp' j1
  have comm : ∀ a b : List K, vAdd a b = vAdd b a := by
    intro a b
    unfold vAdd
    rw [List.zipWith_comm]
    congr 1
    funext x y
    exact add_comm _ _
  rw [comm, interp_zero _ _ l1] at h0
  rw [comm, interp_one _ _ l1] at h1
  refine ⟨_, _, h0, h1, ?_, ?_, ?_, ?_⟩
  · rw [← lp, List.take_left]
  · rw [← lp', List.take_left]
  · rw [List.append_cancel_left_eq]
  · rw [List.append_cancel_left_eq]

/-- **C49 is false**: on the tangent bundle of the line, from `(1, 5)` to itself, the velocity part is lost. -/
theorem C49_interpolation_false :
    (tangentBundle (ProxNLP.vectorSpace 1 : Manifold ℚ)).interpolate [1, 5] [1, 5] 0 [0, 0] = .ok [1, 1] ∧
    (tangentBundle (ProxNLP.vectorSpace 1 : Manifold ℚ)).interpolate [1, 5] [2, 7] 1 [0, 0] = .ok [2, 2] ∧
    ¬ Joins (bundle (Spec.vectorSpace 1 : Space ℚ)) := by
  refine ⟨by decide +kernel, by decide +kernel, ?_⟩
  intro h
  have h1 := (h [1, 5] [1, 5] ⟨[1], [5], rfl, rfl, rfl⟩ ⟨[1], [5], rfl, rfl, rfl⟩).1 [0, 0] rfl
  have h2 : (bundle (Spec.vectorSpace 1 : Space ℚ)).M.interpolate [1, 5] [1, 5] 0 [0, 0] = .ok [1, 1] := by decide +kernel
  rw [h2] at h1
  exact absurd h1 (by decide +kernel)

/-- The hypotheses of the proved part hold for the line. -/
example : ∃ z0 z1, InterpTo (bundle (Spec.vectorSpace 1 : Space ℚ)).M ([1] ++ [5]) ([2] ++ [7]) 0 z0 ∧
    InterpTo (bundle (Spec.vectorSpace 1 : Space ℚ)).M ([1] ++ [5]) ([2] ++ [7]) 1 z1 ∧ z0.take 1 = [1] ∧ z1.take 1 = [2] := by
  obtain ⟨z0, z1, h0, h1, h2, h3, -⟩ := C49_interpolation_partial (Spec.vectorSpace 1 : Space ℚ) (C43_vector_space_laws 1)
    (C43_interpolation 1) [1] [5] [2] [7] rfl rfl rfl rfl
  exact ⟨z0, z1, h0, h1, h2, h3⟩

/-! ### C74 -/

/-- A component with input blocks and its transport map on matrices -/
structure TBlk (K : Type) where
  M : Manifold K
  x : List K
  v : List K
  T : (ℕ → ℕ → K) → ℕ → ℕ → K

theorem prodTransportLoop_spec (arg : ℤ) (ts : List (TBlk K)) (xp vp xq vq : List K) (J : ℕ → ℕ → K)
    (h : ∀ t ∈ ts, t.x.length = t.M.nx ∧ t.v.length = t.M.ndx ∧ ∀ J, t.M.transport t.x t.v J arg = .ok (t.T J)) :
    ∃ R, prodTransportLoop arg (ts.map (·.M)) (xp ++ ((ts.map (·.x)).flatten ++ xq)) (vp ++ ((ts.map (·.v)).flatten ++ vq)) xp.length
      vp.length J = .ok R ∧ (∀ i j, i < vp.length → R i j = J i j) ∧
      (∀ i j, vp.length + (ts.map fun t => t.M.ndx).sum ≤ i → R i j = J i j) ∧
      ∀ pre t post, ts = pre ++ t :: post → ∀ i j, i < t.M.ndx →
        R (vp.length + (pre.map fun t => t.M.ndx).sum + i) j =
          t.T (subRows J (vp.length + (pre.map fun t => t.M.ndx).sum)) i j := by
  induction ts generalizing xp vp J with
  | nil => exact ⟨J, rfl, fun _ _ _ => rfl, fun _ _ _ => rfl, fun pre t post he => by simp at he⟩
  | cons t ts ih =>
    obtain ⟨hx, hv, hT⟩ := h t List.mem_cons_self
    simp only [List.map_cons, List.flatten_cons]
    rw [prodTransportLoop, List.append_assoc, List.append_assoc, segment_mid' xp t.x _ _ _ rfl hx.symm]
    simp only [bind, Except.bind]
    rw [segment_mid' vp t.v _ _ _ rfl hv.symm]
    simp only
    rw [hT]
    simp only
    obtain ⟨R, hR, h1, h2, h3⟩ := ih (xp ++ t.x) (vp ++ t.v) (setRows J vp.length t.M.ndx (t.T (subRows J vp.length)))
      (fun t' ht' => h t' (List.mem_cons_of_mem _ ht'))
    simp only [List.length_append, List.append_assoc, hx, hv] at hR h1 h2 h3
    refine ⟨R, hR, ?_, ?_, ?_⟩
    · intro i j hi
      rw [h1 i j (by omega), setRows, if_neg (by omega)]
    · intro i j hi
      simp only [List.sum_cons] at hi
      rw [h2 i j (by omega), setRows, if_neg (by omega)]
    · intro pre t' post he i j hi
      cases pre with
      | nil =>
        simp only [List.nil_append, List.cons.injEq] at he
        obtain ⟨rfl, rfl⟩ := he
        simp only [List.map_nil, List.sum_nil, Nat.add_zero]
        rw [h1 _ j (by omega), setRows, if_pos (by omega), Nat.add_sub_cancel_left]
      | cons t0 pre =>
        simp only [List.cons_append, List.cons.injEq] at he
        obtain ⟨rfl, rfl⟩ := he
        have := h3 pre t' post rfl i j hi
        simp only [List.map_cons, List.sum_cons]
        rw [show vp.length + (t.M.ndx + (pre.map fun t => t.M.ndx).sum) = vp.length + t.M.ndx + (pre.map fun t => t.M.ndx).sum by omega,
          this]
        congr 1
        funext a b
        simp only [subRows, setRows]
        rw [if_neg (by omega)]

/-- **C74**: transporting a matrix on a product applies the transport of each component to the rows of its block, and
leaves any further rows unchanged. -/
theorem C74_transport_blockwise (arg : ℤ) (ts : List (TBlk K)) (J : ℕ → ℕ → K)
    (h : ∀ t ∈ ts, t.x.length = t.M.nx ∧ t.v.length = t.M.ndx ∧ ∀ J, t.M.transport t.x t.v J arg = .ok (t.T J)) :
    ∃ R, (cartesianProduct (ts.map (·.M))).transport (ts.map (·.x)).flatten (ts.map (·.v)).flatten J arg = .ok R ∧
      (∀ i j, (ts.map fun t => t.M.ndx).sum ≤ i → R i j = J i j) ∧
      ∀ pre t post, ts = pre ++ t :: post → ∀ i j, i < t.M.ndx →
        R ((pre.map fun t => t.M.ndx).sum + i) j = t.T (fun a b => J ((pre.map fun t => t.M.ndx).sum + a) b) i j := by
  obtain ⟨R, h1, -, h2, h3⟩ := prodTransportLoop_spec arg ts [] [] [] [] J h
  simp only [List.length_nil, List.nil_append, List.append_nil, Nat.zero_add] at h1 h2 h3
  exact ⟨R, h1, h2, h3⟩

/-- **C74, bundle**: only the base rows are transported. -/
theorem C74_bundle_transport (B : Manifold K) (p t dp dt : List K) (J Tb : ℕ → ℕ → K) (arg : ℤ) (hp : p.length = B.nx)
    (hdp : dp.length = B.ndx) (hT : B.transport p dp J arg = .ok Tb) :
    ∃ R, (tangentBundle B).transport (p ++ t) (dp ++ dt) J arg = .ok R ∧ (∀ i j, i < B.ndx → R i j = Tb i j) ∧
      ∀ i j, B.ndx ≤ i → R i j = J i j := by
  refine ⟨setRows J 0 B.ndx Tb, by simp only [tangentBundle, headSeg_app p t _ hp, headSeg_app dp dt _ hdp, bind, Except.bind, hT, pure, Except.pure], ?_, ?_⟩
  · intro i j hi
    simp [setRows, hi]
  · intro i j hi
    simp [setRows, Nat.not_lt.2 hi]

/-- Not vacuous: transport on a product of a doubling manifold and the line. -/
example : ∃ R, (cartesianProduct [{ ProxNLP.vectorSpace 1 with transport := fun _ _ J _ => .ok fun i j => 2 * J i j }, ProxNLP.vectorSpace 1] : Manifold ℚ).transport
    [1, 2] [3, 4] (fun _ _ => 5) 0 = .ok R ∧ R 0 0 = 10 ∧ R 1 0 = 5 := by
  have := C74_transport_blockwise (K := ℚ) 0 [⟨{ ProxNLP.vectorSpace 1 with transport := fun _ _ J _ => .ok fun i j => 2 * J i j }, [1], [3],
    fun J i j => 2 * J i j⟩, ⟨ProxNLP.vectorSpace 1, [2], [4], fun J => J⟩] (fun _ _ => 5) (by
      intro t ht
      simp only [List.mem_cons, List.not_mem_nil, or_false] at ht
      rcases ht with rfl | rfl <;> refine ⟨rfl, rfl, fun J => rfl⟩)
  obtain ⟨R, h1, -, h2⟩ := this
  refine ⟨R, h1, ?_, ?_⟩
  · have := h2 [] _ _ rfl 0 0 (by decide)
    simpa using this.trans (by norm_num)
  · have := h2 [_] _ [] rfl 0 0 (by decide)
    simpa [ProxNLP.vectorSpace] using this

end ProxNLP
