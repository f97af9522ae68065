import Verif.Model.BlockKind
import Mathlib.Data.List.Lex
import Mathlib.Data.List.Perm.Basic
import Mathlib.Data.List.Permutation
import Mathlib.Data.List.Sort
import Mathlib.Data.Finset.Card
import Mathlib.Data.Finset.Filter
import Mathlib.Data.List.Nodup

/-! `nextPerm` enumerates the arrangements of a list in lexicographic order. -/

namespace ProxNLP

theorem sorted_least (l m : List ℕ) (hs : l.Pairwise (· ≤ ·)) (hp : m.Perm l) : l ≤ m := by
  induction l generalizing m with
  | nil => rw [hp.eq_nil]
  | cons a l ih =>
    cases m with
    | nil => exact absurd hp.symm.eq_nil (by simp)
    | cons b m =>
      rw [List.pairwise_cons] at hs
      have hab : a ≤ b := by
        rcases List.mem_cons.1 (hp.subset List.mem_cons_self) with h | h
        · exact h.ge
        · exact hs.1 b h
      rcases Nat.lt_or_ge a b with h | h
      · exact le_of_lt (List.cons_lt_cons_iff.2 (Or.inl h))
      · have : a = b := le_antisymm hab h
        subst this
        rcases (ih m hs.2 hp.cons_inv).lt_or_eq with h2 | h2
        · exact le_of_lt (List.cons_lt_cons_iff.2 (Or.inr ⟨rfl, h2⟩))
        · rw [h2]

theorem nextPerm_perm (l : List ℕ) : (nextPerm l).2.Perm l := by
  induction l with
  | nil => exact List.Perm.refl _
  | cons a l ih =>
    rw [nextPerm]
    generalize hr : nextPerm l = r at *
    obtain ⟨b, l'⟩ := r
    cases b with
    | true => exact List.Perm.cons a ih
    | false =>
      simp only
      have hsplit := List.takeWhile_append_dropWhile (p := fun x => decide (x ≤ a)) (l := l')
      cases hd : l'.dropWhile (· ≤ a) with
      | nil =>
        simp only
        exact (List.perm_append_singleton a l').trans (List.Perm.cons a ih)
      | cons x post =>
        simp only
        rw [hd] at hsplit
        have h1 : (l'.takeWhile (· ≤ a) ++ x :: post).Perm l := by rw [hsplit]; exact ih
        have h2 : (x :: (l'.takeWhile (· ≤ a) ++ a :: post)).Perm (a :: (l'.takeWhile (· ≤ a) ++ x :: post)) := by
          have e1 : (l'.takeWhile (· ≤ a) ++ a :: post).Perm (a :: (l'.takeWhile (· ≤ a) ++ post)) := List.perm_middle
          have e2 : (l'.takeWhile (· ≤ a) ++ x :: post).Perm (x :: (l'.takeWhile (· ≤ a) ++ post)) := List.perm_middle
          exact ((List.Perm.cons x e1).trans (List.Perm.swap a x _)).trans (List.Perm.cons a e2.symm)
        exact h2.trans (List.Perm.cons a h1)

/-- no next arrangement: the list is the greatest, and the result is sorted -/
theorem nextPerm_false (l l' : List ℕ) (h : nextPerm l = (false, l')) :
    l'.Pairwise (· ≤ ·) ∧ ∀ m : List ℕ, m.Perm l → m ≤ l := by
  induction l generalizing l' with
  | nil =>
    simp only [nextPerm, Prod.mk.injEq, true_and] at h
    subst h
    exact ⟨List.Pairwise.nil, fun m hm => by rw [hm.eq_nil]⟩
  | cons a l ih =>
    rw [nextPerm] at h
    have hperm := nextPerm_perm l
    generalize hr : nextPerm l = r at *
    obtain ⟨b, t⟩ := r
    cases b with
    | true => simp at h
    | false =>
      obtain ⟨hs, hmax⟩ := ih t rfl
      simp only at h hperm
      cases hd : t.dropWhile (· ≤ a) with
      | cons x post => rw [hd] at h; simp at h
      | nil =>
        rw [hd] at h
        simp only [Prod.mk.injEq, true_and] at h
        subst h
        have hall : ∀ x ∈ t, x ≤ a := by
          intro x hx
          have h1 := List.takeWhile_append_dropWhile (p := fun x => decide (x ≤ a)) (l := t)
          rw [hd, List.append_nil] at h1
          rw [← h1] at hx
          simpa using (List.all_eq_true.1 List.all_takeWhile) x hx
        constructor
        · rw [List.pairwise_append]
          exact ⟨hs, List.pairwise_singleton _ _, fun x hx y hy => by
            rw [List.mem_singleton] at hy; rw [hy]; exact hall x hx⟩
        · intro m hm
          cases m with
          | nil => exact absurd hm.symm.eq_nil (by simp)
          | cons b m =>
            have hb : b ≤ a := by
              rcases List.mem_cons.1 (hm.subset List.mem_cons_self) with h | h
              · exact h.le
              · exact hall b (hperm.symm.subset h)
            rcases Nat.lt_or_ge b a with h | h
            · exact le_of_lt (List.cons_lt_cons_iff.2 (Or.inl h))
            · have : b = a := le_antisymm hb h
              subst this
              rcases (hmax m hm.cons_inv).lt_or_eq with h2 | h2
              · exact le_of_lt (List.cons_lt_cons_iff.2 (Or.inr ⟨rfl, h2⟩))
              · rw [h2]

/-- the next arrangement is the least greater one -/
theorem nextPerm_true (l l' : List ℕ) (h : nextPerm l = (true, l')) :
    l < l' ∧ ∀ m : List ℕ, m.Perm l → l < m → l' ≤ m := by
  induction l generalizing l' with
  | nil => simp [nextPerm] at h
  | cons a l ih =>
    rw [nextPerm] at h
    have hperm := nextPerm_perm l
    generalize hr : nextPerm l = r at *
    obtain ⟨b, t⟩ := r
    cases b with
    | true =>
      simp only [Prod.mk.injEq, true_and] at h
      subst h
      obtain ⟨h1, h2⟩ := ih t rfl
      refine ⟨List.cons_lt_cons_iff.2 (Or.inr ⟨rfl, h1⟩), ?_⟩
      intro m hm hlt
      cases m with
      | nil => exact absurd hm.symm.eq_nil (by simp)
      | cons b m =>
        rcases List.cons_lt_cons_iff.1 hlt with h3 | ⟨h3, h4⟩
        · exact le_of_lt (List.cons_lt_cons_iff.2 (Or.inl h3))
        · subst h3
          rcases (h2 m hm.cons_inv h4).lt_or_eq with h5 | h5
          · exact le_of_lt (List.cons_lt_cons_iff.2 (Or.inr ⟨rfl, h5⟩))
          · rw [h5]
    | false =>
      obtain ⟨hs, hmax⟩ := nextPerm_false l t hr
      simp only at h hperm
      have hsplit := List.takeWhile_append_dropWhile (p := fun x => decide (x ≤ a)) (l := t)
      cases hd : t.dropWhile (· ≤ a) with
      | nil => rw [hd] at h; simp at h
      | cons x post =>
        rw [hd] at h hsplit
        simp only [Prod.mk.injEq, true_and] at h
        subst h
        have hax : a < x := by
          have h2 : t.dropWhile (fun x => decide (x ≤ a)) ≠ [] := by rw [hd]; simp
          have := List.head_dropWhile_not (fun x => decide (x ≤ a)) h2
          simp only [hd, List.head_cons, decide_eq_false_iff_not] at this
          omega
        have hpre : ∀ y ∈ t.takeWhile (· ≤ a), y ≤ a := by
          intro y hy
          simpa using (List.all_eq_true.1 List.all_takeWhile) y hy
        rw [← hsplit, List.pairwise_append, List.pairwise_cons] at hs
        obtain ⟨hs1, ⟨hs2, hs3⟩, hs4⟩ := hs
        have hsorted : (t.takeWhile (· ≤ a) ++ a :: post).Pairwise (· ≤ ·) := by
          rw [List.pairwise_append, List.pairwise_cons]
          refine ⟨hs1, ⟨fun y hy => ?_, hs3⟩, ?_⟩
          · exact le_trans hax.le (hs2 y hy)
          · intro y hy z hz
            rcases List.mem_cons.1 hz with h | h
            · rw [h]; exact hpre y hy
            · exact hs4 y hy z (List.mem_cons_of_mem _ h)
        refine ⟨List.cons_lt_cons_iff.2 (Or.inl hax), ?_⟩
        intro m hm hlt
        cases m with
        | nil => exact absurd hm.symm.eq_nil (by simp)
        | cons b m =>
          have hab : a < b := by
            rcases List.cons_lt_cons_iff.1 hlt with h3 | ⟨h3, h4⟩
            · exact h3
            · subst h3
              exact absurd h4 (not_lt.2 (hmax m hm.cons_inv))
          have hb : b ∈ t := by
            rcases List.mem_cons.1 (hm.subset List.mem_cons_self) with h | h
            · omega
            · exact hperm.symm.subset h
          have hxb : x ≤ b := by
            rw [← hsplit, List.mem_append, List.mem_cons] at hb
            rcases hb with h | h | h
            · have := hpre b h; omega
            · exact h.ge
            · exact hs2 b h
          rcases Nat.lt_or_ge x b with h | h
          · exact le_of_lt (List.cons_lt_cons_iff.2 (Or.inl h))
          · have hxb : x = b := le_antisymm hxb h
            subst hxb
            have hm' : m.Perm (t.takeWhile (· ≤ a) ++ a :: post) := by
              have h1 : (x :: m).Perm (a :: t) := hm.trans (List.Perm.cons a hperm.symm)
              rw [← hsplit] at h1
              have e2 : (t.takeWhile (· ≤ a) ++ x :: post).Perm (x :: (t.takeWhile (· ≤ a) ++ post)) := List.perm_middle
              have h2 : (x :: m).Perm (x :: a :: (t.takeWhile (· ≤ a) ++ post)) :=
                (h1.trans (List.Perm.cons a e2)).trans (List.Perm.swap x a _)
              exact h2.cons_inv.trans List.perm_middle.symm
            rcases (sorted_least _ m hsorted hm').lt_or_eq with h5 | h5
            · exact le_of_lt (List.cons_lt_cons_iff.2 (Or.inr ⟨rfl, h5⟩))
            · rw [h5]

/-- the arrangements not smaller than `l` -/
def remaining (n : ℕ) (l : List ℕ) : ℕ := ((List.range n).permutations.toFinset.filter (l ≤ ·)).card

theorem remaining_lt (n : ℕ) (l l' : List ℕ) (hl : l.Perm (List.range n)) (h : l < l') : remaining n l' < remaining n l := by
  apply Finset.card_lt_card
  rw [Finset.ssubset_iff_of_subset]
  · refine ⟨l, ?_, ?_⟩
    · simp only [Finset.mem_filter, List.mem_toFinset, List.mem_permutations]
      exact ⟨hl, le_refl _⟩
    · simp only [Finset.mem_filter, not_and]
      intro _
      exact not_le.2 h
  · intro q hq
    simp only [Finset.mem_filter] at hq ⊢
    exact ⟨hq.1, h.le.trans hq.2⟩

theorem remaining_le (n : ℕ) (l : List ℕ) : remaining n l ≤ n.factorial := by
  refine (Finset.card_filter_le _ _).trans ((List.toFinset_card_le _).trans ?_)
  rw [List.length_permutations, List.length_range]

end ProxNLP
