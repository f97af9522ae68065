import Verif.Model.Problem
import Verif.Lemmas.Blocks
import Verif.Props.SetProduct

/-!
Property theorems C11 and C12 about problem segments.
-/

set_option linter.unusedSectionVars false
namespace ProxNLP

open Spec

variable {X K : Type} {ndx : ℕ}

theorem resetDims_fold (cs : List (CstrFun X K ndx)) (a b : List ℕ) (c : ℕ) :
    cs.foldl (fun (acc : List ℕ × List ℕ × ℕ) cstr =>
      (acc.1 ++ [cstr.nr], acc.2.1 ++ [acc.2.2], acc.2.2 + cstr.nr)) (a, b, c) =
    (a ++ cs.map (·.nr), b ++ (List.range cs.length).map (fun i => c + offset (cs.map (·.nr)) i),
      c + (cs.map (·.nr)).sum) := by
  induction cs generalizing a b c with
  | nil => simp
  | cons x cs ih =>
    rw [List.foldl_cons, ih]
    refine Prod.ext ?_ (Prod.ext ?_ ?_)
    · simp
    · simp only [List.append_assoc, List.length_cons, List.range_succ_eq_map, List.map_cons, List.map_map,
        List.singleton_append, offset, List.take_zero, List.sum_nil, add_zero]
      congr 2
      refine List.map_congr_left fun i _ => ?_
      simp [add_assoc]
    · simp [add_assoc]

/-- the members describe the constraint list -/
def Problem.Consistent (p : Problem X K ndx) : Prop :=
  p.ncs = p.constraints.map (·.nr) ∧
  p.indices = (List.range p.constraints.length).map (offset (p.constraints.map (·.nr))) ∧
  p.ncTotal = (p.constraints.map (·.nr)).sum

theorem reset_consistent (p : Problem X K ndx) : p.resetConstraintDimVars.Consistent := by
  simp only [Problem.resetConstraintDimVars, resetDims_fold, Problem.Consistent]
  simp

theorem new_consistent (cs : List (CstrFun X K ndx)) : (Problem.new cs).Consistent := reset_consistent _

theorem addAll_spec (p : Problem X K ndx) (h : p.Consistent) (l : List (CstrFun X K ndx)) :
    (p.addAll l).Consistent ∧ (p.addAll l).constraints = p.constraints ++ l := by
  induction l generalizing p with
  | nil => exact ⟨h, by simp [Problem.addAll]⟩
  | cons c l ih =>
    have := ih (p.addConstraint c) (reset_consistent _)
    refine ⟨this.1, ?_⟩
    have h2 := this.2
    simp only [Problem.addAll, List.foldl_cons] at h2 ⊢
    rw [h2]
    simp [Problem.addConstraint, Problem.resetConstraintDimVars]

theorem consistent_index (p : Problem X K ndx) (h : p.Consistent) (i : ℕ) (hi : i < p.constraints.length) :
    p.getIndex i = some (offset (p.constraints.map (·.nr)) i) ∧
    p.getConstraintDim i = some (p.constraints[i].nr) := by
  simp [Problem.getIndex, Problem.getConstraintDim, h.1, h.2.1, hi]

/-! ## C11 -/

/-- C11: for a problem constructed from any list and extended by any sequence of `addConstraint`, the
segments are consecutive in insertion order starting at 0, end at the total dimension and partition it. -/
theorem C11_segments_partition (cs extra : List (CstrFun X K ndx)) (p : Problem X K ndx)
    (hp : p = (Problem.new cs).addAll extra) :
    -- one segment per constraint, of its dimension, in insertion order
    p.getNumConstraints = cs.length + extra.length ∧
    (∀ i (c : CstrFun X K ndx), (cs ++ extra)[i]? = some c → p.getConstraintDim i = some c.nr) ∧
    -- consecutive from 0 to the total
    (∀ i < p.getNumConstraints, ∃ a d, p.getIndex i = some a ∧ p.getConstraintDim i = some d ∧
      (i = 0 → a = 0) ∧ (i + 1 < p.getNumConstraints → p.getIndex (i + 1) = some (a + d)) ∧
      (i + 1 = p.getNumConstraints → a + d = p.getTotalConstraintDim)) ∧
    -- partition
    (∀ k < p.getTotalConstraintDim, ∃! i, ∃ a d, p.getIndex i = some a ∧ p.getConstraintDim i = some d ∧
      a ≤ k ∧ k < a + d) := by
  obtain ⟨hc, he⟩ := addAll_spec (Problem.new cs) (new_consistent cs) extra
  rw [← hp] at hc he
  have he' : p.constraints = cs ++ extra := by
    rw [he]; simp [Problem.new, Problem.resetConstraintDimVars]
  refine ⟨by simp [Problem.getNumConstraints, he'], ?_, ?_, ?_⟩
  · intro i c h
    rw [Problem.getConstraintDim, hc.1, he', List.getElem?_map, h]; rfl
  · intro i hi
    have hi' : i < p.constraints.length := hi
    obtain ⟨h1, h2⟩ := consistent_index p hc i hi'
    have hs : (p.constraints.map (·.nr))[i]? = some (p.constraints[i].nr) := by simp [hi']
    have hsucc := startIdx_succ _ _ _ hs
    rw [startIdx_eq, startIdx_eq] at hsucc
    refine ⟨_, _, h1, h2, ?_, ?_, ?_⟩
    · rintro rfl; simp [offset]
    · intro h3
      rw [(consistent_index p hc (i+1) h3).1]
      unfold offset; rw [hsucc]
    · intro h3
      have h3' : i + 1 = (p.constraints.map (·.nr)).length := by simpa [Problem.getNumConstraints] using h3
      unfold offset
      rw [← hsucc, h3', List.take_length, Problem.getTotalConstraintDim, hc.2.2]
  · intro k hk
    rw [Problem.getTotalConstraintDim, hc.2.2] at hk
    obtain ⟨i, ⟨s, h1, h2, h3⟩, huniq⟩ := C07_blocks_partition _ k hk
    have hi : i < p.constraints.length := by
      have := (List.getElem?_eq_some_iff.1 h1).1; simpa using this
    have hs : p.constraints[i].nr = s := by simpa [hi] using h1
    obtain ⟨e1, e2⟩ := consistent_index p hc i hi
    refine ⟨i, ⟨_, _, e1, e2, h2, by rwa [hs]⟩, ?_⟩
    rintro j ⟨a, d, f1, f2, f3, f4⟩
    have hj : j < p.constraints.length := by
      have := (List.getElem?_eq_some_iff.1 f2).1; simpa [hc.1] using this
    obtain ⟨g1, g2⟩ := consistent_index p hc j hj
    rw [g1] at f1; rw [g2] at f2
    obtain rfl := Option.some.inj f1
    obtain rfl := Option.some.inj f2
    exact huniq j ⟨_, by simp [hj], f3, f4⟩

/-- C11: adding constraints does not move or resize the earlier ranges. -/
theorem C11_add_preserves (cs extra more : List (CstrFun X K ndx)) (i : ℕ)
    (hi : i < ((Problem.new cs).addAll extra).getNumConstraints) :
    (((Problem.new cs).addAll extra).addAll more).getIndex i = ((Problem.new cs).addAll extra).getIndex i ∧
    (((Problem.new cs).addAll extra).addAll more).getConstraintDim i =
      ((Problem.new cs).addAll extra).getConstraintDim i := by
  obtain ⟨h1, _⟩ := addAll_spec (Problem.new cs) (new_consistent cs) extra
  obtain ⟨h2, h2'⟩ := addAll_spec _ h1 more
  generalize (Problem.new cs).addAll extra = p at *
  have hi' : i < (p.addAll more).constraints.length := by
    rw [h2', List.length_append]; have : i < p.constraints.length := hi; omega
  rw [(consistent_index _ h2 i hi').1, (consistent_index _ h2 i hi').2, (consistent_index _ h1 i hi).1,
    (consistent_index _ h1 i hi).2]
  constructor
  · congr 1
    unfold offset
    rw [h2', List.map_append, List.take_append_of_le_length (by rw [List.length_map]; exact Nat.le_of_lt hi)]
  · congr 1
    have : i < p.constraints.length := hi
    simp only [h2', List.getElem_append_left this]
    rfl

/-- non-vacuity: constraints of dimensions 2 and 3, then one of dimension 1 added. -/
example (f : ∀ n, CstrFun Unit ℚ 1) (h : ∀ n, (f n).nr = n) :
    ((Problem.new [f 2, f 3]).addAll [f 1]).indices = [0, 2, 5] ∧
    ((Problem.new [f 2, f 3]).addAll [f 1]).getTotalConstraintDim = 6 := by
  simp [Problem.new, Problem.addAll, Problem.addConstraint, Problem.resetConstraintDimVars,
    Problem.getTotalConstraintDim, h]

/-! ## C12 -/

theorem mapM_some_of_forall {α β : Type} (l : List α) (f : α → Option β) (g : α → β)
    (h : ∀ x ∈ l, f x = some (g x)) : l.mapM f = some (l.map g) := by
  induction l with
  | nil => rfl
  | cons a l ih =>
    rw [List.mapM_cons, h a (by simp), ih (fun x hx => h x (by simp [hx]))]; rfl

/-- the workspace of a consistent problem -/
theorem ws_new_eq [Zero K] (p : Problem X K ndx) (hc : p.Consistent) :
    ∃ ws, CstrWs.new p = some ws ∧ ws.numdual = (p.constraints.map (·.nr)).sum ∧
      ws.views = (List.range p.constraints.length).map
        (fun i => (offset (p.constraints.map (·.nr)) i, ((p.constraints.map (·.nr))[i]?).getD 0)) := by
  have h : ∀ i ∈ List.range p.getNumConstraints, (do
      let s ← p.getIndex i
      let d ← p.getConstraintDim i
      if s + d ≤ p.getTotalConstraintDim then some (s, d) else none) =
      some (offset (p.constraints.map (·.nr)) i, ((p.constraints.map (·.nr))[i]?).getD 0) := by
    intro i hi
    have hi' : i < p.constraints.length := by simpa [Problem.getNumConstraints] using hi
    obtain ⟨h1, h2⟩ := consistent_index p hc i hi'
    have hs : (p.constraints.map (·.nr))[i]? = some (p.constraints[i].nr) := by simp [hi']
    have := block_end_le_sum _ _ _ hs
    rw [startIdx_eq] at this
    simp only [h1, h2, Option.bind_eq_bind, Option.bind_some, hs, Option.getD_some, offset,
      Problem.getTotalConstraintDim, hc.2.2, this, if_true]
  refine ⟨⟨p.getTotalConstraintDim, (List.range p.getNumConstraints).map
    (fun i => (offset (p.constraints.map (·.nr)) i, ((p.constraints.map (·.nr))[i]?).getD 0)), fun _ => 0, fun _ _ => 0⟩, ?_, ?_, ?_⟩
  rotate_left
  · exact hc.2.2
  · rfl
  · unfold CstrWs.new
    rw [mapM_some_of_forall _ _ _ h]; rfl

theorem writeLoop_spec {α : Type} (cs : List (CstrFun X K ndx)) (val : (c : CstrFun X K ndx) → Fin c.nr → α)
    (n : ℕ) (hn : n = (cs.map (·.nr)).sum) (views : List (ℕ × ℕ))
    (hv : views = (List.range cs.length).map
        (fun i => (offset (cs.map (·.nr)) i, ((cs.map (·.nr))[i]?).getD 0))) (buf : Fin n → α) :
    ∃ buf', (List.range cs.length).foldlM (m := Option) (fun buf i => do
        let c ← cs[i]?
        writeView views buf i c.nr (val c)) buf = some buf' ∧
      ∀ i c, cs[i]? = some c → IsBlock buf' (offset (cs.map (·.nr)) i) (val c) := by
  suffices H : ∀ m ≤ cs.length, ∃ buf', (List.range m).foldlM (m := Option) (fun buf i => do
        let c ← cs[i]?
        writeView views buf i c.nr (val c)) buf = some buf' ∧
      ∀ i c, i < m → cs[i]? = some c → IsBlock buf' (offset (cs.map (·.nr)) i) (val c) by
    obtain ⟨b, h1, h2⟩ := H _ le_rfl
    exact ⟨b, h1, fun i c hc => h2 i c (List.getElem?_eq_some_iff.1 hc).1 hc⟩
  intro m
  induction m with
  | zero => intro _; exact ⟨buf, rfl, fun i c h => absurd h (by omega)⟩
  | succ m ih =>
    intro hm
    obtain ⟨b, h1, h2⟩ := ih (by omega)
    have hcm : cs[m]? = some cs[m] := List.getElem?_eq_getElem _
    have hs : (cs.map (·.nr))[m]? = some (cs[m].nr) := by simp [hcm]
    have hend := block_end_le_sum _ _ _ hs
    rw [← hn, startIdx_eq] at hend
    have hview : views[m]? = some (offset (cs.map (·.nr)) m, cs[m].nr) := by
      rw [hv, List.getElem?_map, List.getElem?_range (by omega)]
      simp only [Option.map_some, hs, Option.getD_some]
    refine ⟨writeBlock b (offset (cs.map (·.nr)) m) cs[m].nr (val cs[m]), ?_, ?_⟩
    · rw [List.range_succ, List.foldlM_append, h1]
      simp only [List.foldlM_cons, List.foldlM_nil, Option.bind_eq_bind, Option.bind_some, hcm, writeView, hview]
      rw [if_pos ⟨trivial, hend⟩]; rfl
    · intro i c hi hc
      rcases Nat.lt_succ_iff_lt_or_eq.1 hi with hlt | rfl
      · have hb := h2 i c hlt hc
        intro j
        obtain ⟨hj, e⟩ := hb j
        refine ⟨hj, ?_⟩
        rw [writeBlock_of_not, e]
        have hsi : (cs.map (·.nr))[i]? = some c.nr := by simp [hc]
        have := startIdx_mono (cs.map (·.nr)) (Nat.succ_le_of_lt hlt)
        rw [Nat.succ_eq_add_one, startIdx_succ _ _ _ hsi, startIdx_eq, startIdx_eq] at this
        have hj2 := j.2
        unfold offset at *
        simp only
        omega
      · rw [hcm] at hc
        obtain rfl := Option.some.inj hc
        intro j
        have hj2 := j.2
        refine ⟨by unfold offset; omega, ?_⟩
        simp [writeBlock]

/-- C12: with a workspace created from the problem (constructed and extended in any way before), whatever
the buffers contained, `evaluate`/`computeDerivatives` succeed and segment `i` is constraint `i` at `x`. -/
theorem C12_evaluation_segments [Zero K] (cs extra : List (CstrFun X K ndx)) (p : Problem X K ndx)
    (hp : p = (Problem.new cs).addAll extra) (ws0 ws : CstrWs K ndx) (hws : CstrWs.new p = some ws0)
    (hn : ws.numdual = ws0.numdual) (hv : ws.views = ws0.views) (x : X) :
    (∃ ws', p.evaluate x ws = some ws' ∧ ws'.numdual = p.getTotalConstraintDim ∧
      ∀ i c a, (cs ++ extra)[i]? = some c → p.getIndex i = some a → IsBlock ws'.data a (c.value x)) ∧
    (∃ ws', p.computeDerivatives x ws = some ws' ∧ ws'.numdual = p.getTotalConstraintDim ∧
      ∀ i c a, (cs ++ extra)[i]? = some c → p.getIndex i = some a → IsBlock ws'.jac a (c.jac x)) := by
  obtain ⟨hc, he⟩ := addAll_spec (Problem.new cs) (new_consistent cs) extra
  rw [← hp] at hc he
  have he' : p.constraints = cs ++ extra := by
    rw [he]; simp [Problem.new, Problem.resetConstraintDimVars]
  obtain ⟨w, hw, hw1, hw2⟩ := ws_new_eq p hc
  rw [hws] at hw
  obtain rfl := Option.some.inj hw
  rw [← he']
  have hidx : ∀ i c a, p.constraints[i]? = some c → p.getIndex i = some a →
      a = offset (p.constraints.map (·.nr)) i := by
    intro i c a h1 h2
    rw [(consistent_index p hc i (List.getElem?_eq_some_iff.1 h1).1).1] at h2
    exact (Option.some.inj h2).symm
  constructor
  · obtain ⟨b, h1, h2⟩ := writeLoop_spec p.constraints (fun c => c.value x) ws.numdual (hn.trans hw1)
      ws.views (hv.trans hw2) ws.data
    refine ⟨{ ws with data := b }, ?_, ?_, ?_⟩
    · unfold Problem.evaluate Problem.getNumConstraints; rw [h1]; rfl
    · rw [Problem.getTotalConstraintDim, hc.2.2]; exact hn.trans hw1
    · intro i c a hi ha
      rw [hidx i c a hi ha]; exact h2 i c hi
  · obtain ⟨b, h1, h2⟩ := writeLoop_spec p.constraints (fun c => c.jac x) ws.numdual (hn.trans hw1)
      ws.views (hv.trans hw2) ws.jac
    refine ⟨{ ws with jac := b }, ?_, ?_, ?_⟩
    · unfold Problem.computeDerivatives Problem.getNumConstraints; rw [h1]; rfl
    · rw [Problem.getTotalConstraintDim, hc.2.2]; exact hn.trans hw1
    · intro i c a hi ha
      rw [hidx i c a hi ha]; exact h2 i c hi

/-- C12, consequence: if the stacked Jacobian `J` and the stacked multipliers `lam` have blocks `c.jac x` and
`lams i`, then `Jᵀ lam` is the sum over constraints of `J_iᵀ lam_i`. -/
theorem C12_stacked_transpose_product [Field K] (cs : List (CstrFun X K ndx)) (x : X)
    (J : Fin (cs.map (·.nr)).sum → Fin ndx → K) (lam : Fin (cs.map (·.nr)).sum → K)
    (lams : (i : Fin cs.length) → Fin (cs[i].nr) → K)
    (hJ : ∀ i : Fin cs.length, IsBlock J (offset (cs.map (·.nr)) i) (cs[i].jac x))
    (hl : ∀ i : Fin cs.length, IsBlock lam (offset (cs.map (·.nr)) i) (lams i)) (c : Fin ndx) :
    ∑ k, J k c * lam k = ∑ i : Fin cs.length, ∑ j, cs[i].jac x j c * lams i j := by
  set f : ℕ → K := fun k => if h : k < (cs.map (·.nr)).sum then J ⟨k, h⟩ c * lam ⟨k, h⟩ else 0 with hf
  have e1 : ∑ k, J k c * lam k = ∑ k ∈ Finset.range (cs.map (·.nr)).sum, f k := by
    rw [Finset.sum_range]
    exact Finset.sum_congr rfl fun k _ => by simp [hf]
  rw [e1, sum_blocks]
  refine Fintype.sum_equiv (finCongr (by simp)) _ _ fun i => ?_
  have hi : i.1 < cs.length := by have := i.2; simpa using this
  show ∑ j ∈ Finset.range (cs.map (·.nr))[i.1], f (startIdx (cs.map (·.nr)) i.1 + j) =
    ∑ j, cs[i.1].jac x j c * lams ⟨i.1, hi⟩ j
  rw [List.getElem_map, Finset.sum_range]
  refine Finset.sum_congr rfl fun j _ => ?_
  obtain ⟨h1, h2⟩ := hJ ⟨i.1, hi⟩ j
  obtain ⟨h3, h4⟩ := hl ⟨i.1, hi⟩ j
  have h1' : startIdx (cs.map (·.nr)) i + j < (cs.map (·.nr)).sum := by rw [startIdx_eq]; exact h1
  simp only [hf, dif_pos h1']
  have h2' : _ = cs[i.1].jac x j c := congrFun h2 c
  rw [← h2', ← h4]
  simp only [startIdx_eq, offset]

/-- C12, boundary: adding a constraint after the workspace was created makes `evaluate` run past the
end of the view vector (undefined behaviour). -/
theorem C12_stale_workspace_undefined [Zero K] (cs : List (CstrFun X K ndx)) (c : CstrFun X K ndx)
    (ws : CstrWs K ndx) (hws : CstrWs.new (Problem.new cs) = some ws) (x : X) :
    ((Problem.new cs).addConstraint c).evaluate x ws = none := by
  have hc := new_consistent cs
  obtain ⟨w, hw, hw1, hw2⟩ := ws_new_eq _ hc
  rw [hws] at hw
  obtain rfl := Option.some.inj hw
  have e1 : (Problem.new cs).constraints = cs := by simp [Problem.new, Problem.resetConstraintDimVars]
  have e2 : ((Problem.new cs).addConstraint c).constraints = cs ++ [c] := by
    simp [Problem.addConstraint, Problem.resetConstraintDimVars, e1]
  unfold Problem.evaluate Problem.getNumConstraints
  rw [e2, List.length_append, List.length_singleton, List.range_succ, List.foldlM_append]
  have h3 : ws.views[cs.length]? = none := by rw [hw2, e1]; simp
  cases (List.range cs.length).foldlM (m := Option) (fun buf i => do
      let c ← (cs ++ [c])[i]?
      writeView ws.views buf i c.nr (c.value x)) ws.data with
  | none => rfl
  | some b =>
    simp [writeView, h3]

/-- non-vacuity: two scalar constraints, evaluated into a fresh workspace. -/
example : ∃ ws ws', CstrWs.new (Problem.new
      [⟨1, fun x _ => x, fun _ _ _ => 1⟩, ⟨1, fun x _ => x * x, fun x _ _ => 2 * x⟩] : Problem ℚ ℚ 1) = some ws ∧
    (Problem.new [⟨1, fun x _ => x, fun _ _ _ => 1⟩, ⟨1, fun x _ => x * x, fun x _ _ => 2 * x⟩] :
      Problem ℚ ℚ 1).evaluate 3 ws = some ws' ∧ IsBlock ws'.data 1 (fun _ : Fin 1 => (9 : ℚ)) := by
  refine ⟨_, _, rfl, rfl, ?_⟩
  intro j
  exact ⟨by have := j.2; show 1 + j.1 < 2; omega, by fin_cases j; simp [writeBlock]; norm_num⟩

end ProxNLP
