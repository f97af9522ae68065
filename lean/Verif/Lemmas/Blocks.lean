import Verif.Model.Blocks
import Verif.Model.SetProduct
import Mathlib.Tactic.Linarith

namespace ProxNLP

variable {α : Type*}

theorem foldl_add_start (l : List ℕ) (a : ℕ) : l.foldl (· + ·) a = a + l.sum := by
  induction l generalizing a with
  | nil => simp
  | cons x l ih => simp [ih]; omega

theorem startIdx_eq (sizes : List ℕ) (i : ℕ) : startIdx sizes i = (sizes.take i).sum := by
  simp [startIdx, foldl_add_start]

@[simp] theorem startIdx_zero (sizes : List ℕ) : startIdx sizes 0 = 0 := by simp [startIdx_eq]

theorem startIdx_succ (sizes : List ℕ) (i s : ℕ) (h : sizes[i]? = some s) :
    startIdx sizes (i + 1) = startIdx sizes i + s := by
  simp [startIdx_eq, List.take_add_one, h]

theorem startIdx_mono (sizes : List ℕ) {i j : ℕ} (h : i ≤ j) : startIdx sizes i ≤ startIdx sizes j := by
  obtain ⟨k, rfl⟩ := Nat.exists_eq_add_of_le h
  rw [startIdx_eq, startIdx_eq, List.take_add, List.sum_append]
  omega

theorem startIdx_length (sizes : List ℕ) : startIdx sizes sizes.length = sizes.sum := by
  simp [startIdx_eq]

theorem startIdx_le_sum (sizes : List ℕ) (i : ℕ) : startIdx sizes i ≤ sizes.sum := by
  rcases le_total i sizes.length with h | h
  · rw [← startIdx_length]; exact startIdx_mono _ h
  · rw [startIdx_eq, List.take_of_length_le h]

theorem block_end_le_sum (sizes : List ℕ) (i s : ℕ) (h : sizes[i]? = some s) :
    startIdx sizes i + s ≤ sizes.sum := by
  rw [← startIdx_succ sizes i s h]; exact startIdx_le_sum _ _

/-- every position below the total lies in a block -/
theorem exists_block (sizes : List ℕ) (k : ℕ) (hk : k < sizes.sum) :
    ∃ i s, sizes[i]? = some s ∧ startIdx sizes i ≤ k ∧ k < startIdx sizes i + s := by
  suffices H : ∀ m ≤ sizes.length, k < startIdx sizes m →
      ∃ i s, sizes[i]? = some s ∧ startIdx sizes i ≤ k ∧ k < startIdx sizes i + s by
    exact H sizes.length le_rfl (by rwa [startIdx_length])
  intro m
  induction m with
  | zero => intro _ h; simp at h
  | succ m ih =>
    intro hm h
    have hs : sizes[m]? = some sizes[m] := List.getElem?_eq_getElem _
    rcases lt_or_ge k (startIdx sizes m) with h1 | h1
    · exact ih (by omega) h1
    · exact ⟨m, _, hs, h1, by rwa [startIdx_succ _ _ _ hs] at h⟩

/-- blocks are disjoint -/
theorem block_unique (sizes : List ℕ) (k i j si sj : ℕ) (hi : sizes[i]? = some si)
    (hj : sizes[j]? = some sj) (h1 : startIdx sizes i ≤ k) (h2 : k < startIdx sizes i + si)
    (h3 : startIdx sizes j ≤ k) (h4 : k < startIdx sizes j + sj) : i = j := by
  rcases lt_trichotomy i j with h | h | h
  · have := startIdx_mono sizes (Nat.succ_le_of_lt h)
    rw [Nat.succ_eq_add_one, startIdx_succ _ _ _ hi] at this; omega
  · exact h
  · have := startIdx_mono sizes (Nat.succ_le_of_lt h)
    rw [Nat.succ_eq_add_one, startIdx_succ _ _ _ hj] at this; omega

theorem readBlock_eq_some {n : ℕ} (z : Fin n → α) (start size : ℕ) (h : start + size ≤ n) :
    readBlock z start size = some fun j : Fin size => z ⟨start + j, by omega⟩ := by
  simp [readBlock, h]

theorem readBlock_writeBlock_self {n : ℕ} (z : Fin n → α) (start size : ℕ) (b : Fin size → α)
    (h : start + size ≤ n) : readBlock (writeBlock z start size b) start size = some b := by
  rw [readBlock_eq_some _ _ _ h]
  congr 1; funext j
  simp [writeBlock]

theorem writeBlock_of_not {n : ℕ} (z : Fin n → α) (start size : ℕ) (b : Fin size → α) (k : Fin n)
    (h : ¬ (start ≤ k.1 ∧ k.1 < start + size)) : writeBlock z start size b k = z k := by
  simp only [writeBlock, h, dif_neg, not_false_eq_true]

/-- two buffers that agree on a block have the same block -/
theorem readBlock_congr {n : ℕ} (z z' : Fin n → α) (start size : ℕ)
    (h : ∀ k : Fin n, start ≤ k.1 → k.1 < start + size → z k = z' k) :
    readBlock z start size = readBlock z' start size := by
  unfold readBlock
  split_ifs with hle
  · congr 1; funext j; exact h _ (by simp) (by simp)
  · rfl

/-- buffers with the same block agree there -/
theorem eq_of_readBlock_eq {n : ℕ} (z z' : Fin n → α) (start size : ℕ) (hle : start + size ≤ n)
    (h : readBlock z start size = readBlock z' start size) (k : Fin n) (h1 : start ≤ k.1)
    (h2 : k.1 < start + size) : z k = z' k := by
  rw [readBlock_eq_some _ _ _ hle, readBlock_eq_some _ _ _ hle, Option.some.injEq] at h
  have := congrFun h ⟨k - start, by omega⟩
  simp only [Fin.mk.injEq] at this
  convert this using 2 <;> (ext; simp; omega)


/-- one iteration of the block loop -/
def blockStep {K α : Type} (ops : List (BlockOp K α)) (sizes : List ℕ) (n : ℕ) (z : Fin n → K)
    (out : Fin n → α) (i : ℕ) : Option (Fin n → α) := do
  let op ← ops[i]?
  let size ← sizes[i]?
  let inblock ← readBlock z (startIdx sizes i) size
  let outblock ← readBlock out (startIdx sizes i) size
  let res ← op size inblock outblock
  pure (writeBlock out (startIdx sizes i) size res)

theorem blockLoop_eq {K α : Type} (ops : List (BlockOp K α)) (sizes : List ℕ) (n : ℕ) (z : Fin n → K)
    (out : Fin n → α) : blockLoop ops sizes n z out =
      (List.range ops.length).foldlM (m := Option) (blockStep ops sizes n z) out := rfl

/-- Characterisation of the first `m` iterations. -/
theorem blockPrefix_eq_some_iff {K α : Type} (ops : List (BlockOp K α)) (sizes : List ℕ) (n : ℕ)
    (hlen : ops.length = sizes.length) (hn : sizes.sum ≤ n) (z : Fin n → K) (out : Fin n → α) :
    ∀ m ≤ ops.length, ∀ out', (List.range m).foldlM (m := Option) (blockStep ops sizes n z) out = some out' ↔
      (∀ (i size : ℕ) (op : BlockOp K α), i < m → ops[i]? = some op → sizes[i]? = some size →
        ∃ zb ob ob', readBlock z (startIdx sizes i) size = some zb ∧
          readBlock out (startIdx sizes i) size = some ob ∧
          readBlock out' (startIdx sizes i) size = some ob' ∧ op size zb ob = some ob') ∧
      ∀ k : Fin n, startIdx sizes m ≤ k.1 → out' k = out k := by
  unfold blockStep
  intro m
  induction m with
  | zero =>
    intro _ out'
    simp only [List.range_zero, List.foldlM_nil, startIdx_zero]
    constructor
    · intro h
      have : out = out' := Option.some.inj h
      subst this; simp
    · rintro ⟨_, h⟩
      have : out = out' := by funext k; exact (h k (Nat.zero_le _)).symm
      subst this; rfl
  | succ m ih =>
    intro hm out'
    have hop : ops[m]? = some ops[m] := List.getElem?_eq_getElem _
    have hsz : sizes[m]? = some (sizes[m]'(by omega)) := List.getElem?_eq_getElem _
    generalize ops[m] = op at hop
    generalize sizes[m]'(by omega) = size at hsz
    have hend : startIdx sizes m + size ≤ n := (block_end_le_sum _ _ _ hsz).trans hn
    rw [List.range_succ, List.foldlM_append]
    simp only [List.foldlM_cons, List.foldlM_nil, hop, hsz, Option.bind_eq_bind, Option.bind_some,
      Option.pure_def, Option.bind_fun_some, readBlock_eq_some z _ _ hend]
    simp only [Option.bind_eq_bind, Option.pure_def] at ih
    rw [Option.bind_eq_some_iff]
    constructor
    · rintro ⟨o1, h1, h2⟩
      rw [ih (by omega)] at h1
      obtain ⟨h1a, h1b⟩ := h1
      rw [readBlock_eq_some o1 _ _ hend, Option.bind_some, Option.bind_eq_some_iff] at h2
      obtain ⟨res, h3, h4⟩ := h2
      have h4 : writeBlock o1 (startIdx sizes m) size res = out' := Option.some.inj h4
      have hsame : ∀ k : Fin n, ¬ (startIdx sizes m ≤ k.1 ∧ k.1 < startIdx sizes m + size) → out' k = o1 k := by
        intro k hk; rw [← h4, writeBlock_of_not _ _ _ _ _ hk]
      constructor
      · intro i sz op' hi hop' hsz'
        rcases Nat.lt_succ_iff_lt_or_eq.1 hi with hlt | heq
        · obtain ⟨zb, ob, ob', e1, e2, e3, e4⟩ := h1a i sz op' hlt hop' hsz'
          refine ⟨zb, ob, ob', e1, e2, ?_, e4⟩
          rw [← e3]
          refine readBlock_congr _ _ _ _ fun k k1 k2 => hsame k ?_
          have := startIdx_mono sizes (Nat.succ_le_of_lt hlt)
          rw [Nat.succ_eq_add_one, startIdx_succ _ _ _ hsz'] at this; omega
        · subst heq
          rw [hop] at hop'; rw [hsz] at hsz'
          obtain rfl := Option.some.inj hop'
          obtain rfl := Option.some.inj hsz'
          refine ⟨_, _, res, readBlock_eq_some z _ _ hend, readBlock_eq_some out _ _ hend, ?_, ?_⟩
          · rw [← h4]; exact readBlock_writeBlock_self _ _ _ _ hend
          · rw [← h3]; congr 1; funext j; exact (h1b _ (by simp)).symm
      · intro k hk
        rw [startIdx_succ _ _ _ hsz] at hk
        rw [hsame k (by omega), h1b k (by omega)]
    · rintro ⟨ha, hb⟩
      refine ⟨fun k => if k.1 < startIdx sizes m then out' k else out k, ?_, ?_⟩
      · rw [ih (by omega)]
        constructor
        · intro i sz op' hi hop' hsz'
          obtain ⟨zb, ob, ob', e1, e2, e3, e4⟩ := ha i sz op' (by omega) hop' hsz'
          refine ⟨zb, ob, ob', e1, e2, ?_, e4⟩
          rw [← e3]
          refine readBlock_congr _ _ _ _ fun k k1 k2 => ?_
          have := startIdx_mono sizes (Nat.succ_le_of_lt hi)
          rw [Nat.succ_eq_add_one, startIdx_succ _ _ _ hsz'] at this
          rw [if_pos (by omega)]
        · intro k hk; rw [if_neg (by omega)]
      · obtain ⟨zb, ob, ob', e1, e2, e3, e4⟩ := ha m size op (by omega) hop hsz
        rw [readBlock_eq_some _ _ _ hend, Option.bind_some, Option.bind_eq_some_iff]
        refine ⟨ob', ?_, ?_⟩
        · rw [readBlock_eq_some _ _ _ hend] at e1 e2
          rw [← e4, ← Option.some.inj e1, ← Option.some.inj e2]
          congr 1; funext j; simp
        · congr 1; funext k
          rw [readBlock_eq_some _ _ _ hend] at e3
          have e3 := Option.some.inj e3
          by_cases hk : startIdx sizes m ≤ k.1 ∧ k.1 < startIdx sizes m + size
          · simp only [writeBlock, hk, and_self, dif_pos, ← e3]
            congr 1; ext; simp; omega
          · rw [writeBlock_of_not _ _ _ _ _ hk]
            by_cases hk2 : k.1 < startIdx sizes m
            · rw [if_pos hk2]
            · rw [if_neg hk2]; exact (hb k (by rw [startIdx_succ _ _ _ hsz]; omega)).symm

/-- Full characterisation of the block loop. -/
theorem blockLoop_eq_some_iff {K α : Type} (ops : List (BlockOp K α)) (sizes : List ℕ) (n : ℕ)
    (hlen : ops.length = sizes.length) (hn : sizes.sum ≤ n) (z : Fin n → K) (out out' : Fin n → α) :
    blockLoop ops sizes n z out = some out' ↔
      (∀ (i size : ℕ) (op : BlockOp K α), ops[i]? = some op → sizes[i]? = some size →
        ∃ zb ob ob', readBlock z (startIdx sizes i) size = some zb ∧
          readBlock out (startIdx sizes i) size = some ob ∧
          readBlock out' (startIdx sizes i) size = some ob' ∧ op size zb ob = some ob') ∧
      ∀ k : Fin n, sizes.sum ≤ k.1 → out' k = out k := by
  have := blockPrefix_eq_some_iff ops sizes n hlen hn z out ops.length le_rfl out'
  rw [blockLoop_eq, this, hlen, startIdx_length]
  refine and_congr_left' ⟨fun h i size op h1 h2 => h i size op ?_ h1 h2,
    fun h i size op _ h1 h2 => h i size op h1 h2⟩
  exact (List.getElem?_eq_some_iff.1 h2).1

theorem blockInPlace_eq {K : Type} (ops : List (BlockOp K K)) (sizes : List ℕ) (n : ℕ)
    (hlen : ops.length = sizes.length) (hn : sizes.sum ≤ n) (z : Fin n → K) :
    blockLoopInPlace ops sizes n z = blockLoop ops sizes n z z := by
  suffices H : ∀ m ≤ ops.length, (List.range m).foldlM (m := Option)
      (fun buf i => blockStep ops sizes n buf buf i) z =
      (List.range m).foldlM (m := Option) (blockStep ops sizes n z) z from H _ le_rfl
  intro m
  induction m with
  | zero => intro _; rfl
  | succ m ih =>
    intro hm
    rw [List.range_succ, List.foldlM_append, List.foldlM_append, ih (by omega)]
    cases h : (List.range m).foldlM (m := Option) (blockStep ops sizes n z) z with
    | none => rfl
    | some o =>
      have h2 := ((blockPrefix_eq_some_iff ops sizes n hlen hn z z m (by omega) o).1 h).2
      have hsz : sizes[m]? = some (sizes[m]'(by omega)) := List.getElem?_eq_getElem _
      generalize sizes[m]'(by omega) = size at hsz
      have : readBlock o (startIdx sizes m) size = readBlock z (startIdx sizes m) size :=
        readBlock_congr _ _ _ _ fun k k1 _ => h2 k k1
      simp only [List.foldlM_cons, List.foldlM_nil, blockStep, hsz, Option.bind_eq_bind, Option.bind_some, this]

/-- a sum over the stacked index range is the sum over blocks of the block sums -/
theorem sum_blocks {M : Type*} [AddCommMonoid M] (sizes : List ℕ) (f : ℕ → M) :
    ∑ k ∈ Finset.range sizes.sum, f k =
      ∑ i : Fin sizes.length, ∑ j ∈ Finset.range sizes[i], f (startIdx sizes i + j) := by
  suffices H : ∀ m (hm : m ≤ sizes.length), ∑ k ∈ Finset.range (startIdx sizes m), f k =
      ∑ i : Fin m, ∑ j ∈ Finset.range (sizes[i.1]'(by omega)), f (startIdx sizes i + j) by
    have := H sizes.length le_rfl
    rwa [startIdx_length] at this
  intro m
  induction m with
  | zero => intro _; simp
  | succ m ih =>
    intro hm
    have hs : sizes[m]? = some sizes[m] := List.getElem?_eq_getElem _
    rw [startIdx_succ _ _ _ hs, Finset.sum_range_add, ih (by omega), Fin.sum_univ_castSucc]
    rfl

end ProxNLP
