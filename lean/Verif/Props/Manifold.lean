import Verif.Spec.Manifold
import Mathlib.Tactic.Ring
import Mathlib.Data.List.GetD
import Mathlib.Algebra.BigOperators.Ring.Finset
import Mathlib.Tactic.Linarith
import Mathlib.Tactic.NormNum
import Mathlib.Algebra.Order.Field.Rat

/-! Property theorems for C43-C49: vector spaces, Cartesian products, tangent bundles. -/

set_option linter.unusedSectionVars false
namespace ProxNLP

open Spec

variable {K : Type} [Field K]

/-! ### List arithmetic -/

theorem vAdd_length (x y : List K) : (vAdd x y).length = min x.length y.length := by simp [vAdd]
theorem vSub_length (x y : List K) : (vSub x y).length = min x.length y.length := by simp [vSub]

theorem vAdd_zero (x : List K) : vAdd x (List.replicate x.length 0) = x := by
  induction x with
  | nil => rfl
  | cons a x ih => simp only [vAdd, List.length_cons, List.replicate_succ, List.zipWith_cons_cons] at *; rw [ih]; simp

theorem vSub_self (x : List K) : vSub x x = List.replicate x.length 0 := by
  induction x with
  | nil => rfl
  | cons a x ih => simp only [vSub, List.length_cons, List.replicate_succ, List.zipWith_cons_cons] at *; rw [ih]; simp

theorem vAdd_vSub (x y : List K) (h : x.length = y.length) : vAdd x (vSub y x) = y := by
  induction x generalizing y with
  | nil => cases y with
    | nil => rfl
    | cons => simp at h
  | cons a x ih => cases y with
    | nil => simp at h
    | cons b y =>
      simp only [List.length_cons, Nat.add_right_cancel_iff] at h
      simp only [vAdd, vSub, List.zipWith_cons_cons] at *
      rw [ih y h]; simp

theorem vSub_vAdd (x v : List K) (h : x.length = v.length) : vSub (vAdd x v) x = v := by
  induction x generalizing v with
  | nil => cases v with
    | nil => rfl
    | cons => simp at h
  | cons a x ih => cases v with
    | nil => simp at h
    | cons b v =>
      simp only [List.length_cons, Nat.add_right_cancel_iff] at h
      simp only [vAdd, vSub, List.zipWith_cons_cons] at *
      rw [ih v h]; simp

theorem interp_zero (x y : List K) (h : x.length = y.length) : vAdd (vScale 0 y) (vScale (1 - 0) x) = x := by
  induction x generalizing y with
  | nil => cases y with
    | nil => rfl
    | cons => simp at h
  | cons a x ih => cases y with
    | nil => simp at h
    | cons b y =>
      simp only [List.length_cons, Nat.add_right_cancel_iff] at h
      simp only [vAdd, vScale, List.map_cons, List.zipWith_cons_cons] at *
      rw [ih y h]; simp

theorem interp_one (x y : List K) (h : x.length = y.length) : vAdd (vScale 1 y) (vScale (1 - 1) x) = y := by
  induction x generalizing y with
  | nil => cases y with
    | nil => rfl
    | cons => simp at h
  | cons a x ih => cases y with
    | nil => simp at h
    | cons b y =>
      simp only [List.length_cons, Nat.add_right_cancel_iff] at h
      simp only [vAdd, vScale, List.map_cons, List.zipWith_cons_cons] at *
      rw [ih y h]; simp

theorem vScale_zero (x : List K) : vScale 0 x = List.replicate x.length 0 := by
  induction x with
  | nil => rfl
  | cons a x ih => simp only [vScale, List.map_cons, List.length_cons, List.replicate_succ] at *; rw [ih]; simp

theorem vScale_one (x : List K) : vScale 1 x = x := by
  induction x with
  | nil => rfl
  | cons a x ih => simp only [vScale, List.map_cons] at *; rw [ih]; simp

/-! ### C43 -/

/-- **C43, laws**: the vector space of every dimension satisfies all manifold laws (every vector is a point, every tangent
vector is in the domain). -/
theorem C43_vector_space_laws (n : ℕ) : Lawful (Spec.vectorSpace n : Space K) where
  valid_len _ h := h
  dom_len _ _ h := h
  neutral := ⟨_, rfl, by simp [Spec.vectorSpace]⟩
  integrate_valid x v hx hv := ⟨vAdd x v, by
    simp only [Spec.vectorSpace, ProxNLP.vectorSpace] at *; rw [vAdd_length]; omega, fun out ho => by
    simp only [Spec.vectorSpace, ProxNLP.vectorSpace] at *; rw [if_pos ⟨by omega, by omega⟩]⟩
  difference_len x y hx hy := ⟨vSub y x, by
    simp only [Spec.vectorSpace, ProxNLP.vectorSpace] at *; rw [vSub_length]; omega, fun out ho => by
    simp only [Spec.vectorSpace, ProxNLP.vectorSpace] at *; rw [if_pos ⟨by omega, by omega⟩]⟩
  integrate_zero x hx out ho := by
    simp only [Spec.vectorSpace, ProxNLP.vectorSpace] at *
    subst hx
    rw [if_pos ⟨by simp, by omega⟩, vAdd_zero]
  difference_self x hx out ho := by
    simp only [Spec.vectorSpace, ProxNLP.vectorSpace] at *
    subst hx
    rw [if_pos ⟨by simp, by omega⟩, vSub_self]
  integrate_difference x y d hx hy hd out ho := by
    have h1 := hd (List.replicate n 0) (by simp [Spec.vectorSpace, ProxNLP.vectorSpace])
    simp only [Spec.vectorSpace, ProxNLP.vectorSpace] at *
    rw [if_pos ⟨by omega, by simp [hx]⟩] at h1
    injection h1 with h1
    subst h1
    rw [if_pos ⟨by rw [vSub_length]; omega, by omega⟩, vAdd_vSub x y (by omega)]
  difference_integrate x v y hx hv hy out ho := by
    have h1 := hy (List.replicate n 0) (by simp [Spec.vectorSpace, ProxNLP.vectorSpace])
    simp only [Spec.vectorSpace, ProxNLP.vectorSpace] at *
    rw [if_pos ⟨by omega, by simp [hx]⟩] at h1
    injection h1 with h1
    subst h1
    rw [if_pos ⟨by rw [vAdd_length]; omega, by omega⟩, vSub_vAdd x v (by omega)]

/-- **C43, interpolation** joins its end points. -/
theorem C43_interpolation (n : ℕ) : Joins (Spec.vectorSpace n : Space K) := by
  intro x y hx hy
  simp only [Spec.vectorSpace] at hx hy
  constructor
  · intro out ho
    simp only [Spec.vectorSpace, ProxNLP.vectorSpace] at *
    rw [if_pos ⟨by omega, by omega⟩, interp_zero x y (by omega)]
  · intro out ho
    simp only [Spec.vectorSpace, ProxNLP.vectorSpace] at *
    rw [if_pos ⟨by omega, by omega⟩, interp_one x y (by omega)]

/-- vector of a list -/
def toFn (n : ℕ) (x : List K) : Fin n → K := fun i => x.getD i 0

/-- **C43, Jacobians**: the operations are affine and the matrices reported are their linear parts: `integrate` changes by
`J dx` (argument 0) and `J dv` (argument 1), `difference` by `J0 dx0` and `J1 dx1`; `Jdifference` rejects every other
argument. -/
theorem C43_jacobians (n : ℕ) (x v dx dv : List K) (J : ℕ → ℕ → K) (hx : x.length = n) (hv : v.length = n) (hdx : dx.length = n)
    (hdv : dv.length = n) :
    ∃ J0 J1 D0 D1 : ℕ → ℕ → K,
      (ProxNLP.vectorSpace n).Jintegrate x v J 0 = .ok J0 ∧ (ProxNLP.vectorSpace n).Jintegrate x v J 1 = .ok J1 ∧
      (ProxNLP.vectorSpace n).Jdifference x v J 0 = .ok D0 ∧ (ProxNLP.vectorSpace n).Jdifference x v J 1 = .ok D1 ∧
      ∃ y y', IntTo (ProxNLP.vectorSpace n) x v y ∧ IntTo (ProxNLP.vectorSpace n) (vAdd x dx) (vAdd v dv) y' ∧
        (∀ i < n, y'.getD i 0 = y.getD i 0 + ∑ j ∈ Finset.range n, J0 i j * dx.getD j 0 + ∑ j ∈ Finset.range n, J1 i j * dv.getD j 0) ∧
      ∃ d d', DiffTo (ProxNLP.vectorSpace n) x v d ∧ DiffTo (ProxNLP.vectorSpace n) (vAdd x dx) (vAdd v dv) d' ∧
        (∀ i < n, d'.getD i 0 = d.getD i 0 + ∑ j ∈ Finset.range n, D0 i j * dx.getD j 0 + ∑ j ∈ Finset.range n, D1 i j * dv.getD j 0) := by
  have hl1 : (vAdd x dx).length = n := by rw [vAdd_length]; omega
  have hl2 : (vAdd v dv).length = n := by rw [vAdd_length]; omega
  have get : ∀ (f : K → K → K) (a b : List K) (i : ℕ), i < n → a.length = n → b.length = n →
      (List.zipWith f a b).getD i 0 = f (a.getD i 0) (b.getD i 0) := by
    intro f a b i hi ha hb
    rw [List.getD_eq_getElem _ _ (by simp; omega), List.getD_eq_getElem _ _ (by omega), List.getD_eq_getElem _ _ (by omega)]
    simp
  have sum1 : ∀ (w : List K) (i : ℕ), i < n → ∑ j ∈ Finset.range n, idMat i j * w.getD j 0 = w.getD i 0 := by
    intro w i hi
    simp [idMat, hi]
  have sum2 : ∀ (w : List K) (i : ℕ), i < n → ∑ j ∈ Finset.range n, -idMat i j * w.getD j 0 = -w.getD i 0 := by
    intro w i hi
    simp [idMat, hi]
  refine ⟨idMat, idMat, fun i j => -idMat i j, idMat, rfl, rfl, by simp [ProxNLP.vectorSpace], by simp [ProxNLP.vectorSpace],
    vAdd x v, vAdd (vAdd x dx) (vAdd v dv), ?_, ?_, ?_, vSub v x, vSub (vAdd v dv) (vAdd x dx), ?_, ?_, ?_⟩
  · intro out ho
    simp only [ProxNLP.vectorSpace] at *
    rw [if_pos ⟨by omega, by omega⟩]
  · intro out ho
    simp only [ProxNLP.vectorSpace] at *
    rw [if_pos ⟨by omega, by omega⟩]
  · intro i hi
    rw [sum1 _ i hi, sum1 _ i hi]
    unfold vAdd at *
    rw [get _ _ _ i hi hl1 hl2, get _ _ _ i hi hx hdx, get _ _ _ i hi hv hdv, get _ _ _ i hi hx hv]
    ring
  · intro out ho
    simp only [ProxNLP.vectorSpace] at *
    rw [if_pos ⟨by omega, by omega⟩]
  · intro out ho
    simp only [ProxNLP.vectorSpace] at *
    rw [if_pos ⟨by omega, by omega⟩]
  · intro i hi
    rw [sum2 _ i hi, sum1 _ i hi]
    unfold vAdd vSub at *
    rw [get _ _ _ i hi hl2 hl1, get _ _ _ i hi hx hdx, get _ _ _ i hi hv hdv, get _ _ _ i hi hv hx]
    ring

theorem C43_jdifference_rejects (n : ℕ) (x y : List K) (J : ℕ → ℕ → K) (arg : ℤ) :
    (ProxNLP.vectorSpace n).Jdifference x y J arg = .error .throws ↔ arg ≠ 0 ∧ arg ≠ 1 := by
  simp only [ProxNLP.vectorSpace]
  by_cases h0 : arg = 0
  · simp [h0]
  · by_cases h1 : arg = 1 <;> simp [h0, h1]

/-- **C43 is false for `Jintegrate`**: every argument position is accepted. -/
theorem C43_jintegrate_rejects_false : (ProxNLP.vectorSpace 1 : Manifold ℚ).Jintegrate [0] [0] (fun _ _ => 0) 7 = .ok idMat := rfl

/-! ### Segments -/

theorem segment_mid (p x q : List K) : segment (p ++ x ++ q) p.length x.length = .ok x := by
  unfold segment
  rw [if_pos (by simp), List.append_assoc, List.drop_left, List.take_left]

theorem segment_mid' (p x q : List K) (c n : ℕ) (hc : c = p.length) (hn : n = x.length) :
    segment (p ++ (x ++ q)) c n = .ok x := by
  subst hc; subst hn; rw [← List.append_assoc]; exact segment_mid p x q

theorem setSegment_mid' (p x q r : List K) (c : ℕ) (hc : c = p.length) (hn : r.length = x.length) :
    setSegment (p ++ (x ++ q)) c r = .ok (p ++ (r ++ q)) := by
  subst hc
  unfold setSegment
  rw [if_pos (by simp; omega), List.take_left, hn, ← List.append_assoc p x q]
  have : p.length + x.length = (p ++ x).length := by simp
  rw [this, List.drop_left, List.append_assoc]

theorem exists_split (o : List K) (n m : ℕ) (h : o.length = n + m) : ∃ a b, o = a ++ b ∧ a.length = n ∧ b.length = m :=
  ⟨o.take n, o.drop n, (List.take_append_drop n o).symm, by simp; omega, by simp; omega⟩

theorem foldl_add_nx (Ms : List (Manifold K)) (c : ℕ) : Ms.foldl (fun r M => r + M.nx) c = c + (Ms.map (·.nx)).sum := by
  induction Ms generalizing c with
  | nil => simp
  | cons M Ms ih => rw [List.foldl_cons, ih]; simp [add_assoc]

theorem foldl_add_ndx (Ms : List (Manifold K)) (c : ℕ) : Ms.foldl (fun r M => r + M.ndx) c = c + (Ms.map (·.ndx)).sum := by
  induction Ms generalizing c with
  | nil => simp
  | cons M Ms ih => rw [List.foldl_cons, ih]; simp [add_assoc]

theorem prodNx_eq (Ms : List (Manifold K)) : prodNx Ms = (Ms.map (·.nx)).sum := by rw [prodNx, foldl_add_nx, zero_add]
theorem prodNdx_eq (Ms : List (Manifold K)) : prodNdx Ms = (Ms.map (·.ndx)).sum := by rw [prodNdx, foldl_add_ndx, zero_add]

/-! ### C44 -/

/-- A component with input and output blocks -/
structure Blk (K : Type) where
  M : Manifold K
  x : List K
  v : List K
  y : List K

theorem prodIntegrateLoop_spec (ts : List (Blk K)) (xp vp op o xq vq : List K)
    (h : ∀ t ∈ ts, t.x.length = t.M.nx ∧ t.v.length = t.M.ndx ∧ t.y.length = t.M.nx ∧ IntTo t.M t.x t.v t.y)
    (hop : op.length = xp.length) (ho : o.length = ((ts.map (·.M)).map (·.nx)).sum) :
    prodIntegrateLoop (ts.map (·.M)) (xp ++ ((ts.map (·.x)).flatten ++ xq)) (vp ++ ((ts.map (·.v)).flatten ++ vq)) xp.length vp.length
      (op ++ o) = .ok (op ++ (ts.map (·.y)).flatten) := by
  induction ts generalizing xp vp op o with
  | nil =>
    simp only [List.map_nil, List.sum_nil, List.length_eq_zero_iff] at ho
    subst ho
    rfl
  | cons t ts ih =>
    obtain ⟨hx, hv, hy, hint⟩ := h t List.mem_cons_self
    simp only [List.map_cons, List.sum_cons, List.flatten_cons] at ho ⊢
    obtain ⟨o1, o2, rfl, ho1, ho2⟩ := exists_split o _ _ ho
    rw [prodIntegrateLoop, List.append_assoc, List.append_assoc, segment_mid' xp t.x _ _ _ rfl hx.symm]
    simp only [bind, Except.bind]
    rw [segment_mid' vp t.v _ _ _ rfl hv.symm]
    simp only
    rw [segment_mid' op o1 o2 _ _ hop.symm ho1.symm]
    simp only
    rw [hint o1 ho1]
    simp only
    rw [setSegment_mid' op o1 o2 t.y _ hop.symm (by omega)]
    simp only
    have := ih (xp ++ t.x) (vp ++ t.v) (op ++ t.y) o2 (fun t' ht' => h t' (List.mem_cons_of_mem _ ht')) (by simp; omega) ho2
    simp only [List.length_append, List.append_assoc, hx, hv] at this
    exact this

theorem prodDifferenceLoop_spec (ts : List (Blk K)) (xp yp op o xq yq : List K) (cv : ℕ)
    (h : ∀ t ∈ ts, t.x.length = t.M.nx ∧ t.y.length = t.M.nx ∧ t.v.length = t.M.ndx ∧ DiffTo t.M t.x t.y t.v)
    (hop : op.length = cv) (hyp : yp.length = xp.length) (ho : o.length = ((ts.map (·.M)).map (·.ndx)).sum) :
    prodDifferenceLoop (ts.map (·.M)) (xp ++ ((ts.map (·.x)).flatten ++ xq)) (yp ++ ((ts.map (·.y)).flatten ++ yq)) xp.length cv
      (op ++ o) = .ok (op ++ (ts.map (·.v)).flatten) := by
  induction ts generalizing xp yp op o cv with
  | nil =>
    simp only [List.map_nil, List.sum_nil, List.length_eq_zero_iff] at ho
    subst ho
    rfl
  | cons t ts ih =>
    obtain ⟨hx, hy, hv, hdiff⟩ := h t List.mem_cons_self
    simp only [List.map_cons, List.sum_cons, List.flatten_cons] at ho ⊢
    obtain ⟨o1, o2, rfl, ho1, ho2⟩ := exists_split o _ _ ho
    rw [prodDifferenceLoop, List.append_assoc, List.append_assoc, segment_mid' xp t.x _ _ _ rfl hx.symm]
    simp only [bind, Except.bind]
    rw [segment_mid' yp t.y _ _ _ hyp.symm hy.symm]
    simp only
    rw [segment_mid' op o1 o2 _ _ hop.symm ho1.symm]
    simp only
    rw [hdiff o1 ho1]
    simp only
    rw [setSegment_mid' op o1 o2 t.v _ hop.symm (by omega)]
    simp only
    have := ih (xp ++ t.x) (yp ++ t.y) (op ++ t.v) o2 (cv + t.M.ndx) (fun t' ht' => h t' (List.mem_cons_of_mem _ ht'))
      (by simp; omega) (by simp; omega) ho2
    simp only [List.length_append, List.append_assoc, hx] at this
    exact this

theorem product_intTo (ts : List (Blk K))
    (h : ∀ t ∈ ts, t.x.length = t.M.nx ∧ t.v.length = t.M.ndx ∧ t.y.length = t.M.nx ∧ IntTo t.M t.x t.v t.y) :
    IntTo (cartesianProduct (ts.map (·.M))) (ts.map (·.x)).flatten (ts.map (·.v)).flatten (ts.map (·.y)).flatten := by
  intro out ho
  simp only [cartesianProduct] at ho ⊢
  unfold prodIntegrate
  rw [if_neg (by simpa using ho)]
  rw [prodNx_eq] at ho
  have := prodIntegrateLoop_spec ts [] [] [] out [] [] h rfl ho
  simpa using this

theorem product_diffTo (ts : List (Blk K))
    (h : ∀ t ∈ ts, t.x.length = t.M.nx ∧ t.y.length = t.M.nx ∧ t.v.length = t.M.ndx ∧ DiffTo t.M t.x t.y t.v) :
    DiffTo (cartesianProduct (ts.map (·.M))) (ts.map (·.x)).flatten (ts.map (·.y)).flatten (ts.map (·.v)).flatten := by
  intro out ho
  simp only [cartesianProduct] at ho ⊢
  unfold prodDifference
  rw [if_neg (by simpa using ho)]
  rw [prodNdx_eq] at ho
  have := prodDifferenceLoop_spec ts [] [] [] out [] [] 0 h rfl rfl ho
  simpa using this

theorem splitByLens (ns : List ℕ) (v : List K) (h : v.length = ns.sum) :
    ∃ vs : List (List K), List.Forall₂ (fun n b => b.length = n) ns vs ∧ v = vs.flatten := by
  induction ns generalizing v with
  | nil => exact ⟨[], .nil, by simpa using h⟩
  | cons n ns ih =>
    obtain ⟨a, b, rfl, ha, hb⟩ := exists_split v n ns.sum (by simpa using h)
    obtain ⟨vs, h1, h2⟩ := ih b hb
    exact ⟨a :: vs, .cons ha h1, by rw [h2]; rfl⟩

theorem flatten_len {α : Type} (f : α → ℕ) (l : List α) (xs : List (List K)) (h : List.Forall₂ (fun a b => b.length = f a) l xs) :
    xs.flatten.length = (l.map f).sum := by
  induction h with
  | nil => rfl
  | cons h1 _ ih => simp [h1, ih]

theorem flatten_inj {α : Type} (f : α → ℕ) (l : List α) (xs ys : List (List K)) (hx : List.Forall₂ (fun a b => b.length = f a) l xs)
    (hy : List.Forall₂ (fun a b => b.length = f a) l ys) (h : xs.flatten = ys.flatten) : xs = ys := by
  induction hx generalizing ys with
  | nil => cases hy; rfl
  | cons h1 _ ih =>
    cases hy with
    | cons h2 h3 =>
      simp only [List.flatten_cons] at h
      obtain ⟨e1, e2⟩ := List.append_inj h (by omega)
      rw [e1, ih _ h3 e2]

/-- components and blocks in parallel, from two `Forall₂` -/
theorem exists_blocks {R : Space K → List K → List K → List K → Prop} (Ss : List (Space K)) (xs vs : List (List K))
    (P Q : Space K → List K → Prop) (hx : List.Forall₂ (fun S b => P S b) Ss xs) (hv : List.Forall₂ (fun S b => Q S b) Ss vs)
    (hR : ∀ S ∈ Ss, ∀ x v, P S x → Q S v → ∃ y, R S x v y) :
    ∃ ts : List (Blk K), Ss.map (·.M) = ts.map (·.M) ∧ xs = ts.map (·.x) ∧ vs = ts.map (·.v) ∧
      List.Forall₂ (fun S t => t.M = S.M ∧ P S t.x ∧ Q S t.v ∧ R S t.x t.v t.y) Ss ts := by
  induction hx generalizing vs with
  | nil => cases hv; exact ⟨[], rfl, rfl, rfl, .nil⟩
  | cons h1 _ ih =>
    rename_i S x Ss' xs' _
    cases hv with
    | cons h2 h3 =>
      rename_i v vs'
      obtain ⟨ts, e1, e2, e3, e4⟩ := ih vs' h3 fun S' hS' => hR S' (List.mem_cons_of_mem _ hS')
      obtain ⟨y, hy⟩ := hR S List.mem_cons_self x v h1 h2
      refine ⟨⟨S.M, x, v, y⟩ :: ts, by simp [e1], by simp [e2], by simp [e3], .cons ⟨rfl, h1, h2, hy⟩ e4⟩

theorem forall_of_forall2 {α β : Type} {R : α → β → Prop} {P : α → Prop} {Q : β → Prop} {l : List α} {m : List β}
    (h : List.Forall₂ R l m) (hP : ∀ a ∈ l, P a) (hQ : ∀ a b, P a → R a b → Q b) : ∀ b ∈ m, Q b := by
  induction h with
  | nil => simp
  | cons h1 _ ih =>
    intro b hb
    rcases List.mem_cons.1 hb with rfl | hb
    · exact hQ _ _ (hP _ List.mem_cons_self) h1
    · exact ih (fun a ha => hP a (List.mem_cons_of_mem _ ha)) b hb

theorem forall2_map_right {α β γ : Type} {R : α → β → Prop} {T : α → γ → Prop} {l : List α} {m : List β} (f : β → γ)
    (h : List.Forall₂ R l m) (hRT : ∀ a ∈ l, ∀ b, R a b → T a (f b)) : List.Forall₂ T l (m.map f) := by
  induction h with
  | nil => exact .nil
  | cons h1 _ ih =>
    exact .cons (hRT _ List.mem_cons_self _ h1) (ih fun a ha => hRT a (List.mem_cons_of_mem _ ha))

theorem intTo_unique {M : Manifold K} {x v y y' : List K} (h : IntTo M x v y) (h' : IntTo M x v y') : y = y' := by
  have := (h (List.replicate M.nx 0) (by simp)).symm.trans (h' (List.replicate M.nx 0) (by simp))
  injection this

theorem diffTo_unique {M : Manifold K} {x v y y' : List K} (h : DiffTo M x v y) (h' : DiffTo M x v y') : y = y' := by
  have := (h (List.replicate M.ndx 0) (by simp)).symm.trans (h' (List.replicate M.ndx 0) (by simp))
  injection this

theorem replicate_flatten (l : List ℕ) : (l.map fun n => List.replicate n (0 : K)).flatten = List.replicate l.sum 0 := by
  induction l with
  | nil => rfl
  | cons n l ih => simp [ih]

theorem prodNeutralLoop_spec (Ss : List (Space K)) (es : List (List K)) (op o : List K)
    (h : List.Forall₂ (fun S e => S.M.neutral = .ok e ∧ e.length = S.M.nx) Ss es)
    (ho : o.length = ((Ss.map (·.M)).map (·.nx)).sum) :
    prodNeutralLoop (Ss.map (·.M)) op.length (op ++ o) = .ok (op ++ es.flatten) := by
  induction h generalizing op o with
  | nil =>
    simp only [List.map_nil, List.sum_nil, List.length_eq_zero_iff] at ho
    subst ho
    rfl
  | cons h1 _ ih =>
    rename_i S e Ss' es' _
    simp only [List.map_cons, List.sum_cons, List.flatten_cons] at ho ⊢
    obtain ⟨o1, o2, rfl, ho1, ho2⟩ := exists_split o _ _ ho
    rw [prodNeutralLoop, h1.1]
    simp only [bind, Except.bind]
    rw [if_neg (by simpa using h1.2), setSegment_mid' op o1 o2 e _ rfl (by omega)]
    simp only
    have := ih (op ++ e) o2 ho2
    simp only [List.length_append, List.append_assoc, h1.2] at this
    exact this

theorem exists_neutrals (Ss : List (Space K)) (h : ∀ S ∈ Ss, Lawful S) :
    ∃ es : List (List K), List.Forall₂ (fun S e => S.M.neutral = .ok e ∧ S.valid e) Ss es := by
  induction Ss with
  | nil => exact ⟨[], .nil⟩
  | cons S Ss ih =>
    obtain ⟨es, hes⟩ := ih fun S' hS' => h S' (List.mem_cons_of_mem _ hS')
    obtain ⟨e, he⟩ := (h S List.mem_cons_self).neutral
    exact ⟨e :: es, .cons he hes⟩

theorem forall2_imp {α β : Type} {R T : α → β → Prop} {l : List α} {m : List β} (h : List.Forall₂ R l m)
    (hRT : ∀ a ∈ l, ∀ b, R a b → T a b) : List.Forall₂ T l m := by
  have := forall2_map_right id h hRT
  simpa using this

/-- **C44, dimensions** add up. -/
theorem C44_dims (Ss : List (Space K)) :
    (product Ss).M.nx = (Ss.map fun S => S.M.nx).sum ∧ (product Ss).M.ndx = (Ss.map fun S => S.M.ndx).sum := by
  simp only [product, cartesianProduct]
  rw [prodNx_eq, prodNdx_eq, List.map_map, List.map_map]
  exact ⟨rfl, rfl⟩

/-- **C44**: the Cartesian product of any list of manifolds satisfying the laws satisfies the laws, with the
concatenations of points (tangent vectors) of the components as points (tangent vectors). Since `product` is again a
manifold, this covers nested products. -/
theorem C44_product_laws (Ss : List (Space K)) (h : ∀ S ∈ Ss, Lawful S) : Lawful (product Ss) := by
  have hdims := C44_dims Ss
  have hM : (product Ss).M = cartesianProduct (Ss.map (·.M)) := rfl
  have vlen : ∀ {xs : List (List K)}, List.Forall₂ (fun S b => S.valid b) Ss xs →
      List.Forall₂ (fun S b => b.length = S.M.nx) Ss xs := fun hxs =>
    forall2_imp hxs fun S hS b hb => (h S hS).valid_len b hb
  constructor
  · rintro x ⟨xs, hxs, rfl⟩
    rw [hdims.1]
    exact flatten_len (fun S => S.M.nx) Ss xs (vlen hxs)
  · rintro x v ⟨bs, hbs, -, rfl⟩
    rw [hdims.2]
    exact flatten_len (fun S => S.M.ndx) Ss _ (forall2_map_right (·.2) hbs fun S hS b hb => (h S hS).dom_len b.1 b.2 hb.2)
  · obtain ⟨es, hes⟩ := exists_neutrals Ss h
    refine ⟨es.flatten, ?_, es, forall2_imp hes fun _ _ _ hb => hb.2, rfl⟩
    have := prodNeutralLoop_spec Ss es [] (freshVec (prodNx (Ss.map (·.M))))
      (forall2_imp hes fun S hS b hb => ⟨hb.1, (h S hS).valid_len b hb.2⟩) (by simp [freshVec, prodNx_eq])
    simp only [List.length_nil, List.nil_append] at this
    exact this
  · rintro x v ⟨xs, hxs, rfl⟩ hv
    rw [hdims.2] at hv
    obtain ⟨vs, hvs, rfl⟩ := splitByLens _ v hv
    rw [List.forall₂_map_left_iff] at hvs
    obtain ⟨ts, e1, e2, e3, e4⟩ := exists_blocks (R := fun S x v y => S.valid y ∧ IntTo S.M x v y) Ss xs vs _ _ hxs hvs
      fun S hS x v hx hv => (h S hS).integrate_valid x v hx hv
    refine ⟨(ts.map (·.y)).flatten, ⟨_, forall2_map_right (·.y) e4 fun _ _ t ht => ht.2.2.2.1, rfl⟩, ?_⟩
    rw [hM, e1, e2, e3]
    apply product_intTo
    refine forall_of_forall2 e4 h ?_
    rintro S t hS ⟨rfl', hx, hv, hy, hi⟩
    rw [rfl']
    exact ⟨hS.valid_len _ hx, hv, hS.valid_len _ hy, hi⟩
  · rintro x y ⟨xs, hxs, rfl⟩ ⟨ys, hys, rfl⟩
    obtain ⟨ts, e1, e2, e3, e4⟩ := exists_blocks (R := fun S x y d => d.length = S.M.ndx ∧ DiffTo S.M x y d) Ss xs ys _ _ hxs hys
      fun S hS x y hx hy => (h S hS).difference_len x y hx hy
    refine ⟨(ts.map (·.y)).flatten, ?_, ?_⟩
    · rw [hdims.2]
      exact flatten_len (fun S => S.M.ndx) Ss _ (forall2_map_right (·.y) e4 fun _ _ t ht => ht.2.2.2.1)
    · have := product_diffTo (ts.map fun t => ⟨t.M, t.x, t.y, t.v⟩) (by
        intro t' ht'
        obtain ⟨t, ht, rfl⟩ := List.mem_map.1 ht'
        refine (forall_of_forall2 (Q := fun t : Blk K => t.x.length = t.M.nx ∧ t.v.length = t.M.nx ∧ t.y.length = t.M.ndx ∧
          DiffTo t.M t.x t.v t.y) e4 h ?_) t ht
        rintro S t hS ⟨rfl', hx, hv, hy, hi⟩
        rw [rfl']
        exact ⟨hS.valid_len _ hx, hS.valid_len _ hv, hy, hi⟩)
      rw [hM, e1, e2, e3]
      simpa [List.map_map, Function.comp_def] using this
  · rintro x ⟨xs, hxs, rfl⟩
    obtain ⟨ts, e1, e2, e3, e4⟩ := exists_blocks (R := fun _ x _ y => y = x) Ss xs (Ss.map fun S => List.replicate S.M.ndx 0) _
      (fun S b => b = List.replicate S.M.ndx 0) hxs (by
        rw [List.forall₂_map_right_iff]
        exact List.forall₂_same.2 fun _ _ => rfl)
      fun S _ x _ _ _ => ⟨x, rfl⟩
    have hz : List.replicate (product Ss).M.ndx (0 : K) = (ts.map (·.v)).flatten := by
      rw [← e3, hdims.2, ← replicate_flatten, List.map_map]
      rfl
    have hyx : (ts.map (·.x)) = ts.map (·.y) := by
      apply List.map_congr_left
      exact forall_of_forall2 (P := fun _ => True) e4 (fun _ _ => trivial) (fun S t _ ht => ht.2.2.2.symm)
    rw [hz, hM, e1, e2]
    nth_rewrite 2 [hyx]
    apply product_intTo
    refine forall_of_forall2 e4 h ?_
    rintro S t hS ⟨rfl', hx, hv, hy⟩
    rw [rfl', hv, hy]
    exact ⟨hS.valid_len _ hx, by simp, hS.valid_len _ hx, hS.integrate_zero _ hx⟩
  · rintro x ⟨xs, hxs, rfl⟩
    obtain ⟨ts, e1, e2, e3, e4⟩ := exists_blocks (R := fun _ x _ y => y = x) Ss xs (Ss.map fun S => List.replicate S.M.ndx 0) _
      (fun S b => b = List.replicate S.M.ndx 0) hxs (by
        rw [List.forall₂_map_right_iff]
        exact List.forall₂_same.2 fun _ _ => rfl)
      fun S _ x _ _ _ => ⟨x, rfl⟩
    have hz : List.replicate (product Ss).M.ndx (0 : K) = (ts.map (·.v)).flatten := by
      rw [← e3, hdims.2, ← replicate_flatten, List.map_map]
      rfl
    have hyx : (ts.map (·.x)) = ts.map (·.y) := by
      apply List.map_congr_left
      exact forall_of_forall2 (P := fun _ => True) e4 (fun _ _ => trivial) (fun S t _ ht => ht.2.2.2.symm)
    rw [hz, hM, e1, e2]
    nth_rewrite 2 [hyx]
    apply product_diffTo
    refine forall_of_forall2 e4 h ?_
    rintro S t hS ⟨rfl', hx, hv, hy⟩
    rw [rfl', hv, hy]
    exact ⟨hS.valid_len _ hx, hS.valid_len _ hx, by simp, hS.difference_self _ hx⟩
  · rintro x y d ⟨xs, hxs, rfl⟩ ⟨ys, hys, rfl⟩ hd
    obtain ⟨ts, e1, e2, e3, e4⟩ := exists_blocks (R := fun S x y d => d.length = S.M.ndx ∧ DiffTo S.M x y d) Ss xs ys _ _ hxs hys
      fun S hS x y hx hy => (h S hS).difference_len x y hx hy
    have hall := forall_of_forall2 (Q := fun t : Blk K => t.x.length = t.M.nx ∧ t.v.length = t.M.nx ∧ t.y.length = t.M.ndx ∧
          DiffTo t.M t.x t.v t.y ∧ IntTo t.M t.x t.y t.v) e4 h (by
        rintro S t hS ⟨rfl', hx, hv, hy, hi⟩
        rw [rfl']
        exact ⟨hS.valid_len _ hx, hS.valid_len _ hv, hy, hi, hS.integrate_difference _ _ _ hx hv hi⟩)
    have hdd := product_diffTo (ts.map fun t => ⟨t.M, t.x, t.y, t.v⟩) (by
        intro t' ht'
        obtain ⟨t, ht, rfl⟩ := List.mem_map.1 ht'
        exact ⟨(hall t ht).1, (hall t ht).2.1, (hall t ht).2.2.1, (hall t ht).2.2.2.1⟩)
    have hii := product_intTo (ts.map fun t => ⟨t.M, t.x, t.y, t.v⟩) (by
        intro t' ht'
        obtain ⟨t, ht, rfl⟩ := List.mem_map.1 ht'
        exact ⟨(hall t ht).1, (hall t ht).2.2.1, (hall t ht).2.1, (hall t ht).2.2.2.2⟩)
    simp only [List.map_map, Function.comp_def] at hdd hii
    rw [hM, e1, e2, e3] at hd
    rw [diffTo_unique hd hdd, hM, e1, e2, e3]
    exact hii
  · rintro x v y hx ⟨bs, hbs, rfl, rfl⟩ hy
    obtain ⟨ts, e1, e2, e3, e4⟩ := exists_blocks (R := fun S x v y => (S.valid x → S.dom x v → S.valid y ∧ IntTo S.M x v y ∧ DiffTo S.M x y v) )
      Ss (bs.map (·.1)) (bs.map (·.2)) (fun S x => S.valid x) (fun S v => v.length = S.M.ndx)
      (forall2_map_right (·.1) hbs fun _ _ b hb => hb.1)
      (forall2_map_right (·.2) hbs fun S hS b hb => (h S hS).dom_len _ _ hb.2) (by
        intro S hS x v hx hv
        obtain ⟨y, hy1, hy2⟩ := (h S hS).integrate_valid x v hx hv
        exact ⟨y, fun _ hdom => ⟨hy1, hy2, (h S hS).difference_integrate x v y hx hdom hy2⟩⟩)
    -- the domain condition holds for the blocks of `ts`
    have hdom : List.Forall₂ (fun S t => S.dom (t : Blk K).x t.v) Ss ts := by
      have hpair : bs = ts.map fun t => (t.x, t.v) := by
        have h1 : bs = List.zip (bs.map (·.1)) (bs.map (·.2)) := by
          rw [List.zip_map', List.map_congr_left (g := id) (by simp)]; simp
        rw [h1, e2, e3, List.zip_map']
      rw [hpair, List.forall₂_map_right_iff] at hbs
      exact forall2_imp hbs fun _ _ _ hb => hb.2
    have hall : ∀ t ∈ ts, t.x.length = t.M.nx ∧ t.v.length = t.M.ndx ∧ t.y.length = t.M.nx ∧ IntTo t.M t.x t.v t.y ∧
        DiffTo t.M t.x t.y t.v := by
      have hcomb : List.Forall₂ (fun S (t : Blk K) => (t.M = S.M ∧ S.valid t.x ∧ t.v.length = S.M.ndx ∧
          (S.valid t.x → S.dom t.x t.v → S.valid t.y ∧ IntTo S.M t.x t.v t.y ∧ DiffTo S.M t.x t.y t.v)) ∧ S.dom t.x t.v) Ss ts := by
        clear hbs hy hx vlen hdims hM e1 e2 e3 h
        induction e4 with
        | nil => exact .nil
        | cons h1 _ ih =>
          cases hdom with
          | cons h2 h3 => exact .cons ⟨h1, h2⟩ (ih h3)
      refine forall_of_forall2 hcomb h ?_
      rintro S t hS ⟨⟨rfl', hx, hv, hR⟩, hd⟩
      obtain ⟨r1, r2, r3⟩ := hR hx hd
      rw [rfl']
      exact ⟨hS.valid_len _ hx, hv, hS.valid_len _ r1, r2, r3⟩
    have hii := product_intTo ts fun t ht => ⟨(hall t ht).1, (hall t ht).2.1, (hall t ht).2.2.1, (hall t ht).2.2.2.1⟩
    have hdd := product_diffTo ts fun t ht => ⟨(hall t ht).1, (hall t ht).2.2.1, (hall t ht).2.1, (hall t ht).2.2.2.2⟩
    rw [hM, e1, e2, e3] at hy
    rw [intTo_unique hy hii, hM, e1, e2, e3]
    exact hdd

/-- **C44, interpolation**: interpolation on a product of lawful manifolds joins its end points (it is the default one). -/
theorem C44_interpolation (Ss : List (Space K)) (h : ∀ S ∈ Ss, Lawful S) : Joins (product Ss) := by
  have hl := C44_product_laws Ss h
  intro x y hx hy
  obtain ⟨d, hd, hdt⟩ := hl.difference_len x y hx hy
  have hfresh : (product Ss).M.difference x y (freshVec (prodNdx (Ss.map (·.M)))) = .ok d := hdt _ (by simp [freshVec, product, cartesianProduct])
  constructor
  · intro out ho
    show defaultInterpolate _ _ _ x y 0 out = _
    unfold defaultInterpolate
    have h1 : prodDifference (Ss.map (·.M)) x y (freshVec (prodNdx (Ss.map (·.M)))) = .ok d := hfresh
    rw [h1]
    simp only [bind, Except.bind]
    rw [vScale_zero, hd]
    exact hl.integrate_zero x hx out ho
  · intro out ho
    show defaultInterpolate _ _ _ x y 1 out = _
    unfold defaultInterpolate
    have h1 : prodDifference (Ss.map (·.M)) x y (freshVec (prodNdx (Ss.map (·.M)))) = .ok d := hfresh
    rw [h1]
    simp only [bind, Except.bind]
    rw [vScale_one]
    exact hl.integrate_difference x y d hx hy hdt out ho

end ProxNLP
