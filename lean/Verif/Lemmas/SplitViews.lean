import Verif.Spec.SplitViews
import Verif.Props.ManifoldOps

/-! Lemmas for C125. -/

set_option linter.unusedSectionVars false
namespace ProxNLP

open Spec

variable {K : Type} [Field K]

/-- the views of consecutive blocks -/
def viewsOf : ℕ → List ℕ → List View
  | _, [] => []
  | c, n :: ns => ⟨c, n⟩ :: viewsOf (c + n) ns

theorem splitViewsLoop_ok (w : View) (ns : List ℕ) (c : ℕ) (h : c + ns.sum ≤ w.len) : splitViewsLoop w ns c = .ok (viewsOf (w.off + c) ns) := by
  induction ns generalizing c with
  | nil => rfl
  | cons n ns ih =>
    rw [List.sum_cons] at h
    rw [splitViewsLoop, if_pos (by omega), ih (c + n) (by omega)]
    simp only [bind, Except.bind, pure, Except.pure, viewsOf, Nat.add_assoc]

theorem viewsOf_append (c : ℕ) (ns ms : List ℕ) : viewsOf c (ns ++ ms) = viewsOf c ns ++ viewsOf (c + ns.sum) ms := by
  induction ns generalizing c with
  | nil => rfl
  | cons n ns ih => simp only [List.cons_append, viewsOf, List.sum_cons, ih, Nat.add_assoc]

theorem getElem?_mid (pre b post : List K) (j : ℕ) (h : j < b.length) : (pre ++ (b ++ post))[pre.length + j]? = b[j]? := by
  rw [List.getElem?_append_right (by omega), Nat.add_sub_cancel_left, List.getElem?_append_left h]

theorem set_mid (pre b post : List K) (j : ℕ) (v : K) (h : j < b.length) :
    (pre ++ (b ++ post)).set (pre.length + j) v = pre ++ (b.set j v ++ post) := by
  rw [List.set_append_right _ _ (by omega), Nat.add_sub_cancel_left, List.set_append_left _ _ h]

/-- reading a view of a block -/
theorem viewGet_mid (pre b post : List K) (j : ℕ) :
    viewGet (pre ++ (b ++ post)) ⟨pre.length, b.length⟩ j = (b[j]?.elim (.error .undefined) .ok) := by
  unfold viewGet
  by_cases h : j < b.length
  · rw [if_pos h]
    simp only [getElem?_mid pre b post j h]
    rw [List.getElem?_eq_getElem h]; rfl
  · rw [if_neg h, List.getElem?_eq_none (by omega)]; rfl

theorem viewSet_mid (pre b post : List K) (j : ℕ) (v : K) :
    viewSet (pre ++ (b ++ post)) ⟨pre.length, b.length⟩ j v =
      if j < b.length then .ok (pre ++ (b.set j v ++ post)) else .error .undefined := by
  unfold viewSet
  by_cases h : j < b.length
  · rw [if_pos h, if_pos h, if_pos (by simp only [List.length_append]; omega), set_mid pre b post j v h]
  · rw [if_neg h, if_neg h]

/-- the piece at index `i` lies where block `i` is -/
theorem viewsOf_getElem? (pre : List K) (bs : List (List K)) (post : List K) (i : ℕ) :
    (viewsOf pre.length (bs.map List.length))[i]? = bs[i]?.map fun b => ⟨pre.length + (bs.take i).flatten.length, b.length⟩ := by
  induction bs generalizing pre i with
  | nil => rfl
  | cons b bs ih =>
    cases i with
    | zero => rfl
    | succ i =>
      have := ih (pre ++ b) i
      rw [List.length_append] at this
      simp only [List.map_cons, viewsOf, List.getElem?_cons_succ, this, List.take_succ_cons, List.flatten_cons, List.length_append,
        Nat.add_assoc]

theorem flatten_at (bs : List (List K)) (i : ℕ) (b : List K) (h : bs[i]? = some b) :
    bs.flatten = (bs.take i).flatten ++ (b ++ (bs.drop (i + 1)).flatten) ∧
    ∀ b', (bs.set i b').flatten = (bs.take i).flatten ++ (b' ++ (bs.drop (i + 1)).flatten) := by
  induction bs generalizing i with
  | nil => cases h
  | cons a bs ih =>
    cases i with
    | zero => cases h; exact ⟨rfl, fun b' => rfl⟩
    | succ i =>
      obtain ⟨e1, e2⟩ := ih i h
      refine ⟨?_, fun b' => ?_⟩
      · simp only [List.flatten_cons, List.take_succ_cons, List.drop_succ_cons, List.append_assoc, e1]
      · simp only [List.set_cons_succ, List.flatten_cons, List.take_succ_cons, List.drop_succ_cons, List.append_assoc, e2]

theorem wholeSet_spec (v : K) (bs : List (List K)) (j : ℕ) :
    (wholeSet v bs j).elim (bs.flatten.length ≤ j) fun bs' => j < bs.flatten.length ∧ bs'.flatten = bs.flatten.set j v ∧
      bs'.map List.length = bs.map List.length := by
  induction bs generalizing j with
  | nil => exact Nat.zero_le _
  | cons b bs ih =>
    rw [wholeSet]
    split
    · rename_i h
      refine ⟨?_, ?_, ?_⟩
      · simp only [List.flatten_cons, List.length_append]; omega
      · simp only [List.flatten_cons, List.set_append_left _ _ h]
      · simp
    · rename_i h
      have := ih (j - b.length)
      cases hw : wholeSet v bs (j - b.length) with
      | none =>
        rw [hw] at this
        show (b :: bs).flatten.length ≤ j
        have this : bs.flatten.length ≤ j - b.length := this
        rw [List.flatten_cons, List.length_append]
        omega
      | some bs' =>
        rw [hw] at this
        obtain ⟨a1, a2, a3⟩ := this
        refine ⟨?_, ?_, ?_⟩
        · rw [List.flatten_cons, List.length_append]; omega
        · rw [List.flatten_cons, List.flatten_cons, List.set_append_right _ _ (by omega), a2]
        · simp only [List.map_cons, a3]

theorem viewsContents_spec (pre : List K) (bs : List (List K)) (post : List K) :
    viewsContents (pre ++ bs.flatten ++ post) (viewsOf pre.length (bs.map List.length)) = .ok bs := by
  induction bs generalizing pre with
  | nil => rfl
  | cons b bs ih =>
    have := ih (pre ++ b)
    rw [List.length_append] at this
    simp only [List.map_cons, viewsOf, viewsContents, List.flatten_cons]
    rw [List.append_assoc pre, List.append_assoc b, segment_mid' pre b _ _ _ rfl rfl]
    simp only [bind, Except.bind]
    rw [← List.append_assoc b, ← List.append_assoc pre, ← List.append_assoc pre, this]
    rfl

/-- one statement -/
theorem pieceStep_spec (pre post : List K) (bs : List (List K)) (op : PieceOp K) :
    pieceStep (bs.map List.length) ⟨pre.length, bs.flatten.length⟩ (viewsOf pre.length (bs.map List.length)) (pre ++ bs.flatten ++ post) op =
      ((blockStep bs op).elim (.error .undefined) fun r => .ok (pre ++ r.1.flatten ++ post, r.2)) ∧
    ∀ r, blockStep bs op = some r → r.1.map List.length = bs.map List.length := by
  cases op with
  | write i j v =>
    simp only [pieceStep, blockStep, blockSet, viewsOf_getElem? pre bs post i]
    cases hb : bs[i]? with
    | none => exact ⟨rfl, fun r hr => by cases hr⟩
    | some b =>
      obtain ⟨e1, e2⟩ := flatten_at bs i b hb
      have hm : pre ++ bs.flatten ++ post = (pre ++ (bs.take i).flatten) ++ (b ++ ((bs.drop (i + 1)).flatten ++ post)) := by
        rw [e1]; simp only [List.append_assoc]
      have hv := viewSet_mid (pre ++ (bs.take i).flatten) b ((bs.drop (i + 1)).flatten ++ post) j v
      rw [List.length_append, ← hm] at hv
      simp only [Option.map_some, hv, Option.bind_eq_bind, Option.bind_some]
      by_cases hj : j < b.length
      · rw [if_pos hj, if_pos hj]
        refine ⟨?_, fun r hr => ?_⟩
        · simp only [bind, Except.bind, pure, Except.pure, Option.map_some, Option.elim_some, e2, List.append_assoc]
        · cases hr
          show (bs.set i (b.set j v)).map List.length = _
          rw [List.map_set, List.length_set]
          apply List.ext_getElem?
          intro q
          rw [List.getElem?_set]
          split
          · rename_i hq
            subst hq
            rw [List.getElem?_map, hb]
            split
            · rfl
            · rename_i hl
              exact absurd (by rw [List.length_map]; exact (List.getElem?_eq_some_iff.1 hb).1) hl
          · rfl
      · rw [if_neg hj, if_neg hj]
        exact ⟨rfl, fun r hr => by cases hr⟩
  | writeWhole j v =>
    have hv := viewSet_mid pre bs.flatten post j v
    rw [← List.append_assoc] at hv
    simp only [pieceStep, blockStep, hv]
    have hs := wholeSet_spec v bs j
    cases hw : wholeSet v bs j with
    | none =>
      rw [hw] at hs
      rw [if_neg (Nat.not_lt.2 hs)]
      exact ⟨rfl, fun r hr => by cases hr⟩
    | some bs' =>
      rw [hw] at hs
      obtain ⟨a1, a2, a3⟩ := hs
      rw [if_pos a1]
      refine ⟨?_, fun r hr => by cases hr; exact a3⟩
      simp only [bind, Except.bind, pure, Except.pure, Option.map_some, Option.elim_some, a2, List.append_assoc]
  | read i j =>
    simp only [pieceStep, blockStep, blockGet, viewsOf_getElem? pre bs post i]
    cases hb : bs[i]? with
    | none => exact ⟨rfl, fun r hr => by cases hr⟩
    | some b =>
      obtain ⟨e1, -⟩ := flatten_at bs i b hb
      have hm : pre ++ bs.flatten ++ post = (pre ++ (bs.take i).flatten) ++ (b ++ ((bs.drop (i + 1)).flatten ++ post)) := by
        rw [e1]; simp only [List.append_assoc]
      have hv := viewGet_mid (pre ++ (bs.take i).flatten) b ((bs.drop (i + 1)).flatten ++ post) j
      rw [List.length_append, ← hm] at hv
      simp only [Option.map_some, hv, Option.bind_eq_bind, Option.bind_some]
      cases b[j]? with
      | none => exact ⟨rfl, fun r hr => by cases hr⟩
      | some a => exact ⟨rfl, fun r hr => by cases hr; rfl⟩
  | readWhole j =>
    have hv := viewGet_mid pre bs.flatten post j
    rw [← List.append_assoc] at hv
    simp only [pieceStep, blockStep, hv]
    cases bs.flatten[j]? with
    | none => exact ⟨rfl, fun r hr => by cases hr⟩
    | some a => exact ⟨rfl, fun r hr => by cases hr; rfl⟩
  | merge =>
    have hm := mergeLoop_spec (bs.map List.length) bs [] [] (freshVec (bs.map List.length).sum)
      (by rw [List.forall₂_map_left_iff]; exact List.forall₂_same.2 fun _ _ => rfl) (by simp [freshVec])
    simp only [List.append_nil, List.length_nil, List.nil_append] at hm
    simp only [pieceStep, blockStep, viewsContents_spec, bind, Except.bind, hm]
    exact ⟨rfl, fun r hr => by cases hr; rfl⟩

/-- a program -/
theorem pieceRun_spec (pre post : List K) (ops : List (PieceOp K)) (sizes : List ℕ) (l : ℕ) (bs : List (List K)) (hs : bs.map List.length = sizes)
    (hl : l = sizes.sum) :
    pieceRun sizes ⟨pre.length, l⟩ (viewsOf pre.length sizes) (pre ++ bs.flatten ++ post) ops = inMemory pre post (blockRun bs ops) := by
  induction ops generalizing bs with
  | nil => rfl
  | cons op ops ih =>
    have hl' : l = bs.flatten.length := by rw [hl, ← hs, List.length_flatten]
    obtain ⟨s1, s2⟩ := pieceStep_spec pre post bs op
    rw [hs, ← hl'] at s1
    rw [pieceRun, blockRun, s1]
    cases hb : blockStep bs op with
    | none => rfl
    | some r =>
      simp only [Option.elim_some, bind, Except.bind, Option.bind_some]
      rw [ih r.1 ((s2 r hb).trans hs)]
      cases blockRun r.1 ops with
      | none => rfl
      | some q => rfl

end ProxNLP
