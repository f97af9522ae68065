import Verif.Lemmas.BlockLdlt
import Verif.Props.BlockTri
import Verif.Props.Signature
import Verif.Lemmas.Check

/-! Property theorems for C61: the block LDLT factorisation and its solve; C57, C78 for the block backend. -/

set_option linter.unusedSectionVars false
namespace ProxNLP

open BlockKind Spec

variable {K : Type} [Field K] [LinearOrder K]

namespace Spec

/-- No triangular blocks off the diagonal, and blocks declared diagonal are square (all structures built by the library). -/
def SimpleBlocks (n : ℕ) (lens : ℕ → ℕ) (kinds : ℕ → ℕ → BlockKind) : Prop :=
  ∀ i < n, ∀ j < n, i ≠ j →
    (kinds i j = zero ∨ kinds i j = diag ∨ kinds i j = dense) ∧ (kinds i j = diag → lens i = lens j)

/-- The symmetric matrix given by its lower half, with rows and columns taken in the order `idx`. -/
def permutedMat (idx : List ℕ) (A : ℕ → ℕ → K) : ℕ → ℕ → K := fun i j => matCoeff A (idx.getD i 0) (idx.getD j 0)

end Spec

/-! ### structures without triangular blocks -/

theorem simple_product (a b c : BlockKind) (ha : a = zero ∨ a = diag ∨ a = dense) (hb : b = zero ∨ b = diag ∨ b = dense)
    (hc : c = zero ∨ c = diag ∨ c = dense) :
    (add a (mul b (BlockKind.trans c)) = zero ∨ add a (mul b (BlockKind.trans c)) = diag ∨ add a (mul b (BlockKind.trans c)) = dense) ∧
    (add a (mul b (BlockKind.trans c)) = diag → a = diag ∨ (b = diag ∧ c = diag)) := by
  rcases ha with rfl | rfl | rfl <;> rcases hb with rfl | rfl | rfl <;> rcases hc with rfl | rfl | rfl <;> decide

theorem simple_column {n : ℕ} {lens : ℕ → ℕ} {Ks : ℕ → ℕ → BlockKind} (hp : Ks 0 0 = dense ∨ Ks 0 0 = diag)
    (h : SimpleBlocks (n + 1) lens Ks) :
    (Ks 0 0 = dense ∧ ∀ i, 1 ≤ i → i < n + 1 → colSpec (n + 1) Ks i 0 = triU ∨ colSpec (n + 1) Ks i 0 = dense) ∨
    (Ks 0 0 = diag ∧ ∀ i, 1 ≤ i → i < n + 1 → colSpec (n + 1) Ks i 0 = Ks i 0) := by
  rcases hp with hp | hp
  · refine Or.inl ⟨hp, fun i h1 h2 => ?_⟩
    have : colSpec (n + 1) Ks i 0 = lltBelowDense (Ks i 0) := by simp [colSpec, hp, h1, h2, Nat.ne_of_gt h1]
    rw [this]
    rcases (h i h2 0 (by omega) (by omega)).1 with h | h | h <;> simp [h, lltBelowDense]
  · refine Or.inr ⟨hp, fun i h1 h2 => ?_⟩
    simp [colSpec, hp, Nat.ne_of_gt h1]

theorem simple_update {n : ℕ} {lens : ℕ → ℕ} {Ks : ℕ → ℕ → BlockKind} (hp : Ks 0 0 = dense ∨ Ks 0 0 = diag)
    (h : SimpleBlocks (n + 1) lens Ks) :
    SimpleBlocks n (fun i => lens (i + 1)) fun i j => lltUpdateSpec (n + 1) (colSpec (n + 1) Ks) (i + 1) (j + 1) := by
  have hc : ∀ a b, colSpec (n + 1) Ks (a + 1) (b + 1) = Ks (a + 1) (b + 1) := by
    intro a b; simp [colSpec]
  -- the updated kind above the diagonal
  have key : ∀ i < n, ∀ j < n, i ≠ j →
      (let k := add (Ks (i + 1) (j + 1)) (mul (colSpec (n + 1) Ks (i + 1) 0) (trans (colSpec (n + 1) Ks (j + 1) 0)))
       (k = zero ∨ k = diag ∨ k = dense) ∧ (k = diag → lens (i + 1) = lens (j + 1))) := by
    intro i hi j hj hij
    obtain ⟨a1, a2⟩ := h (i + 1) (by omega) (j + 1) (by omega) (by omega)
    rcases simple_column hp h with ⟨_, hcol⟩ | ⟨_, hcol⟩
    · have hx := hcol (i + 1) (by omega) (by omega)
      have hy := hcol (j + 1) (by omega) (by omega)
      have : add (Ks (i + 1) (j + 1)) (mul (colSpec (n + 1) Ks (i + 1) 0) (trans (colSpec (n + 1) Ks (j + 1) 0))) = dense := by
        rcases hx with hx | hx <;> rcases hy with hy | hy <;> rw [hx, hy] <;> rcases a1 with a | a | a <;> rw [a] <;> decide
      simp only [this]
      simp
    · rw [hcol (i + 1) (by omega) (by omega), hcol (j + 1) (by omega) (by omega)]
      obtain ⟨b1, b2⟩ := h (i + 1) (by omega) 0 (by omega) (by omega)
      obtain ⟨c1, c2⟩ := h (j + 1) (by omega) 0 (by omega) (by omega)
      obtain ⟨d1, d2⟩ := simple_product _ _ _ a1 b1 c1
      refine ⟨d1, fun hk => ?_⟩
      rcases d2 hk with hk | ⟨hk, hk'⟩
      · exact a2 hk
      · rw [b2 hk, c2 hk']
  intro i hi j hj hij
  simp only [lltUpdateSpec]
  rw [if_pos (by omega), hc, hc]
  by_cases h1 : i ≤ j
  · rw [if_pos (by omega)]
    exact key i hi j hj hij
  · rw [if_neg (by omega)]
    have h2 := key j hj i hi (Ne.symm hij)
    simp only at h2
    obtain ⟨h3, h4⟩ := h2
    have : ∀ k : BlockKind, (k = zero ∨ k = diag ∨ k = dense) → trans k = k := by
      rintro k (rfl | rfl | rfl) <;> rfl
    rw [this _ h3]
    exact ⟨h3, fun h5 => (h4 h5).symm⟩

theorem simple_factor (n : ℕ) (lens : ℕ → ℕ) (Ks F : ℕ → ℕ → BlockKind) (h : SimpleBlocks n lens Ks)
    (hs : (llt n Ks).1 = true) (hF : ∀ i < n, ∀ j < n, F i j = (llt n Ks).2 i j) :
    FactorFits n lens F ∧ ∀ c i, c < i → i < n → F i c ≠ triL := by
  induction n generalizing lens Ks F with
  | zero => exact ⟨⟨fun _ _ _ h => by omega, fun _ _ _ _ _ h => by omega, fun _ _ _ _ _ h => by omega⟩, fun _ _ _ h => by omega⟩
  | succ n ih =>
    obtain ⟨hp, hF0, hs', hF'⟩ := llt_level hs hF
    obtain ⟨⟨t1, t2, t3⟩, t4⟩ := ih (fun i => lens (i + 1)) _ (fun i j => F (i + 1) (j + 1)) (simple_update hp h) hs' hF'
    have hcol := simple_column hp h
    -- first column
    have k1 : ∀ i, 1 ≤ i → i < n + 1 → (F i 0 = diag → lens i = lens 0) ∧ F i 0 ≠ triL := by
      intro i h1 h2
      rw [hF0 i h2]
      rcases hcol with ⟨_, hc⟩ | ⟨_, hc⟩
      · rcases hc i h1 h2 with hc | hc <;> rw [hc] <;> simp
      · rw [hc i h1 h2]
        obtain ⟨a, b⟩ := h i h2 0 (by omega) (by omega)
        refine ⟨b, ?_⟩
        rcases a with a | a | a <;> rw [a] <;> simp
    have k2 : ∀ i j, 1 ≤ i → i < n + 1 → 1 ≤ j → j < n + 1 → F j 0 = triU → F i 0 ≠ diag := by
      intro i j h1 h2 h3 h4 h5 h6
      rw [hF0 j h4] at h5
      rw [hF0 i h2] at h6
      rcases hcol with ⟨_, hc⟩ | ⟨_, hc⟩
      · rcases hc i h1 h2 with hc | hc <;> rw [hc] at h6 <;> cases h6
      · rw [hc j h3 h4] at h5
        rcases (h j h4 0 (by omega) (by omega)).1 with a | a | a <;> rw [a] at h5 <;> cases h5
    refine ⟨⟨?_, ?_, ?_⟩, ?_⟩
    · intro c i h1 h2 h3
      cases c with
      | zero => exact (k1 i (by omega) h2).1 h3
      | succ c =>
        obtain ⟨i, rfl⟩ : ∃ a, i = a + 1 := ⟨i - 1, by omega⟩
        exact t1 c i (by omega) (by omega) h3
    · intro c i j h1 h2 h3 h4 h5
      cases c with
      | zero => exact absurd h5 (k2 i j (by omega) (by omega) (by omega) h3 h4)
      | succ c =>
        obtain ⟨i, rfl⟩ : ∃ a, i = a + 1 := ⟨i - 1, by omega⟩
        obtain ⟨j, rfl⟩ : ∃ a, j = a + 1 := ⟨j - 1, by omega⟩
        exact t2 c i j (by omega) (by omega) (by omega) h4 h5
    · intro c i j h1 h2 h3 h4 h5
      cases c with
      | zero => exact absurd h4 (k2 j i (by omega) (by omega) (by omega) (by omega) h5)
      | succ c =>
        obtain ⟨i, rfl⟩ : ∃ a, i = a + 1 := ⟨i - 1, by omega⟩
        obtain ⟨j, rfl⟩ : ∃ a, j = a + 1 := ⟨j - 1, by omega⟩
        exact t3 c i j (by omega) (by omega) (by omega) h4 h5
    · intro c i h1 h2
      cases c with
      | zero => exact (k1 i (by omega) h2).2
      | succ c =>
        obtain ⟨i, rfl⟩ : ∃ a, i = a + 1 := ⟨i - 1, by omega⟩
        exact t4 c i (by omega) (by omega)

/-! ### reaching an analysed object -/

/-- The object's structure is `s` rearranged by the block permutation `q` and symbolically factorised with success. -/
def Spec.Analysed (s : Sym) (q : List ℕ) (a : BlockAnalysis) : Prop :=
  q.Perm (List.range s.n) ∧ fillCount s q ≠ none ∧ AnalysedWith s q a

theorem llt_of_fillCount {s : Sym} {q : List ℕ} (hf : fillCount s q ≠ none) :
    (llt s.n fun i j => s.kinds (q.getD i 0) (q.getD j 0)).1 = true := by
  by_contra hc
  unfold fillCount at hf
  rw [if_neg hc] at hf
  exact hf rfl

/-- a new object, the permutation search -/
theorem analysed_find (s : Sym) (size fuel : ℕ) (hsize : size = segOffset s.lens s.n) (hn : s.n ≠ 0) (hpf : s.performed = false)
    (hd : ∀ i < s.n, s.kinds i i = diag ∨ s.kinds i i = dense) (hfuel : s.n.factorial ≤ fuel) :
    ∃ a, findSparsifyingPermutation fuel (BlockAnalysis.init size s) = some a ∧ Analysed s a.perm a := by
  have h0 : (BlockAnalysis.init size s).struct = s := symCopy_id_congr s
  obtain ⟨ok, st, h1, h2, h3, h4, _⟩ := C52_first_best s s (BlockAnalysis.init size s).perm fuel rfl hfuel
  have hall := C52_succeeds s hd
  have hok := h3.2 hall
  have hbest := h4 hok
  obtain ⟨idx, e1, e2⟩ := analysed_core s st.best
    { BlockAnalysis.init size s with perm := st.best, struct := symCopy s st.self (permFn st.best) } st.self hn rfl rfl h2 hpf
    (hall _ hbest.1)
  have e3 := e2.1
  refine ⟨_, ?_, by rw [e3]; exact hbest.1, by rw [e3]; exact hall _ hbest.1, by rw [e3]; exact e2⟩
  unfold findSparsifyingPermutation
  have e4 : putIndices (BlockAnalysis.init size s).indices idx = some idx :=
    putIndices_eq s st.best idx size hn hbest.1 (by rw [← e3]; exact e1) hsize
  simp only [h0, symCopy_id_congr, h1, Option.bind_eq_bind, Option.bind_some, e1, analyzePattern_indices, e4, Option.pure_def]

/-- a new object, a permutation given by the user -/
theorem analysed_set (s : Sym) (size : ℕ) (hsize : size = segOffset s.lens s.n) (q : List ℕ) (hn : s.n ≠ 0) (hpf : s.performed = false)
    (hq : q.Perm (List.range s.n)) (hf : fillCount s q ≠ none) :
    ∃ a, setBlockPermutation (BlockAnalysis.init size s) (some q) = some a ∧ Analysed s q a := by
  have h0 : (BlockAnalysis.init size s).struct = s := symCopy_id_congr s
  obtain ⟨idx, e1, e2⟩ := analysed_core s q
    { BlockAnalysis.init size s with perm := q, struct := symCopy s { s with performed := false } (permFn q) }
    { s with performed := false } hn rfl rfl rfl hpf hf
  refine ⟨_, ?_, hq, hf, e2⟩
  unfold setBlockPermutation
  have e4 : putIndices (BlockAnalysis.init size s).indices idx = some idx :=
    putIndices_eq s q idx size hn hq (by rw [← e2.1]; exact e1) hsize
  simp only [h0, symCopy_id_congr, Option.getD_some, e1, Option.bind_eq_bind, Option.bind_some, analyzePattern_indices, e4,
    Option.pure_def]

/-- a new object, only `analyzePattern()`: the blocks stay in their order -/
theorem analysed_pattern (s : Sym) (hn : s.n ≠ 0) (hpf : s.performed = false) (hf : fillCount s (List.range s.n) ≠ none) :
    Analysed s (List.range s.n) (analyzePattern (BlockAnalysis.init (segOffset s.lens s.n) s)).2 := by
  have h0 : (BlockAnalysis.init (segOffset s.lens s.n) s).struct = s := symCopy_id_congr s
  have hr : ∀ i < s.n, (List.range s.n).getD i 0 = i := fun i hi => by
    rw [List.getD_eq_getElem _ _ (by rw [List.length_range]; exact hi), List.getElem_range]
  have hperf : s.performed = false := hpf
  have hs := llt_of_fillCount hf
  obtain ⟨c1, c2⟩ := llt_congr s.n s.kinds (fun i j => s.kinds ((List.range s.n).getD i 0) ((List.range s.n).getD j 0))
    (fun i hi j hj => by rw [hr i hi, hr j hj])
  refine ⟨List.Perm.refl _, hf, ?_⟩
  have hap : (analyzePattern (BlockAnalysis.init (segOffset s.lens s.n) s)).2 = { BlockAnalysis.init (segOffset s.lens s.n) s with
      struct := (lltInPlace s).2, structTr := (lltInPlace s).2.transpose } := by
    unfold analyzePattern
    rw [h0, if_neg (by rw [hperf]; simp)]
  rw [hap]
  refine ⟨rfl, ?_, rfl, ?_, fun i hi => by rw [hr i hi]; rfl, fun i hi j hj => c2 i hi j hj, rfl⟩
  · rw [updateIndices, if_neg hn]
    simp only [blockStart_eq]
    rw [flatten_range']
    rfl
  · simp only [lltInPlace]
    rw [c1, hs]
    split
    · rename_i hcol
      exfalso
      rw [← c1] at hs
      obtain ⟨m, hm⟩ : ∃ m, s.n = m + 1 := ⟨s.n - 1, by omega⟩
      rw [hm] at hs hcol
      rw [llt] at hs
      cases hc : lltColumn (m + 1) s.kinds with
      | none => rw [hc] at hs; simp at hs
      | some x => rw [hc] at hcol; simp at hcol
    · rfl

/-! ### the factorisation -/

section
variable {s : Sym} {q : List ℕ}

theorem Spec.Analysed.rows {a : BlockAnalysis} (h : Analysed s q a) : a.indices.Perm (List.range (segOffset s.lens s.n)) := by
  obtain ⟨hq, _, h2⟩ := h
  have hn : s.n ≠ 0 := by
    intro h0
    have := h2.2.1
    rw [updateIndices, if_pos h0] at this
    cases this
  obtain ⟨idx, g1, g2, _⟩ := C53_rows s q hq hn
  have := h2.2.1
  rw [g1] at this
  rw [← Option.some.inj this]
  exact g2

theorem Spec.Analysed.size {a : BlockAnalysis} (h : Analysed s q a) : segOffset a.struct.lens s.n = segOffset s.lens s.n := by
  rw [← segOffset_perm s q h.1]
  exact Finset.sum_congr rfl fun m hm => h.2.2.2.2.2.2.1 m (Finset.mem_range.1 hm)

theorem Spec.Analysed.pattern {a : BlockAnalysis} (h : Analysed s q a) (A : ℕ → ℕ → K) (hA : HasPattern s.n s.lens s.kinds (matCoeff A)) :
    HasPattern s.n a.struct.lens (fun i j => s.kinds (q.getD i 0) (q.getD j 0)) (permutedMat a.indices A) :=
  hasPattern_congr s.n _ _ _ _ _ (fun i hi => (h.2.2.2.2.2.2.1 i hi).symm) (fun _ _ _ _ => rfl)
    (C53_pattern s q a.indices h.1 h.2.2.2.1 (matCoeff A) hA)

theorem permuteInput_lower (idx : List ℕ) (A old : ℕ → ℕ → K) (i c : ℕ) (h : c ≤ i) :
    permuteInput idx A old i c = permutedMat idx A i c := by
  rw [permuteInput, if_pos h]
  rfl

theorem compute_eq {o : BlockObj K} (h : Analysed s q o.an) (N : ℕ) (A : ℕ → ℕ → K) :
    o.compute N A = { o with n := N
                             mat := (blockLdlt s.n N o.an.struct.lens o.an.struct.kinds (permuteInput o.an.indices A o.mat) o.sign).2.1
                             sign := (blockLdlt s.n N o.an.struct.lens o.an.struct.kinds (permuteInput o.an.indices A o.mat) o.sign).2.2
                             info := some (blockLdlt s.n N o.an.struct.lens o.an.struct.kinds (permuteInput o.an.indices A o.mat) o.sign).1 } := by
  unfold BlockObj.compute
  simp only
  rw [if_pos h.2.2.2.2.2.1, h.2.2.2.2.1]

/-- **C61** (all structures satisfying `FactorFits`): on a matrix with the declared pattern, a run that reports success and
meets no zero pivot (but possibly the last one) leaves the factors of the permuted matrix: `L D L^T = P^T A P`, `L` unit lower
triangular. Missing: structures with triangular blocks off the diagonal can violate `FactorFits`, and then the result is wrong
(`C61_diag_triU_false`); they can also make the run fail (`C61_triL_fails`). -/
theorem C61_factorises_partial (o : BlockObj K) (A : ℕ → ℕ → K) (h : Analysed s q o.an)
    (hA : HasPattern s.n s.lens s.kinds (matCoeff A)) (hfit : FactorFits s.n o.an.struct.lens o.an.struct.kinds)
    (hok : (o.compute (segOffset s.lens s.n) A).info = some true)
    (hpiv : ∀ k, k + 1 < segOffset s.lens s.n → (o.compute (segOffset s.lens s.n) A).vectorD k ≠ 0) :
    IsLDL (segOffset s.lens s.n) (permutedMat o.an.indices A) (unitLower (o.compute (segOffset s.lens s.n) A).mat)
      (o.compute (segOffset s.lens s.n) A).vectorD := by
  rw [compute_eq h] at hok hpiv ⊢
  simp only [BlockObj.vectorD, Option.some.injEq] at hok hpiv ⊢
  rw [← h.size] at hok hpiv ⊢
  have := blockLdlt_lower s.n _ _ _ (permutedMat o.an.indices A) _ o.sign (llt_of_fillCount h.2.1) h.2.2.2.2.2.2.2.1 hfit
    (h.pattern A hA) (fun i _ j _ => matCoeff_symm A _ _) (fun i _ c hc => permuteInput_lower o.an.indices A o.mat i c hc) hok hpiv
  refine (this.isLDL hpiv).congr_left fun i _ j _ => ?_
  simp only [matCoeff]
  split
  · rfl
  · exact matCoeff_symm A _ _

/-- **C61**: "no zero pivot" is a property of the matrix: if the permuted matrix has a factorisation with nonzero pivots, the
run finds it. -/
theorem C61_finds_partial (o : BlockObj K) (A L : ℕ → ℕ → K) (d : ℕ → K) (h : Analysed s q o.an)
    (hA : HasPattern s.n s.lens s.kinds (matCoeff A)) (hfit : FactorFits s.n o.an.struct.lens o.an.struct.kinds)
    (hL : IsLDL (segOffset s.lens s.n) (permutedMat o.an.indices A) L d)
    (hok : (o.compute (segOffset s.lens s.n) A).info = some true) :
    (∀ k < segOffset s.lens s.n, (o.compute (segOffset s.lens s.n) A).vectorD k = d k) ∧
    ∀ i < segOffset s.lens s.n, ∀ j < segOffset s.lens s.n, unitLower (o.compute (segOffset s.lens s.n) A).mat i j = L i j := by
  have hd : ∀ k < segOffset s.lens s.n, (o.compute (segOffset s.lens s.n) A).vectorD k = d k := by
    rw [compute_eq h] at hok ⊢
    simp only [BlockObj.vectorD, Option.some.injEq] at hok ⊢
    rw [← h.size] at hok hL ⊢
    exact blockLdlt_pivots s.n _ _ _ (permutedMat o.an.indices A) _ L d o.sign (llt_of_fillCount h.2.1) h.2.2.2.2.2.2.2.1 hfit
      (h.pattern A hA) (fun i _ c hc => permuteInput_lower o.an.indices A o.mat i c hc) hL hok
  refine ⟨hd, ?_⟩
  have := C61_factorises_partial o A h hA hfit hok fun k hk => by rw [hd k (by omega)]; exact hL.pivots k hk
  exact (IsLDL.unique this hL).2

theorem Spec.Analysed.simple {a : BlockAnalysis} (h : Analysed s q a) (hsimple : SimpleBlocks s.n s.lens s.kinds) :
    FactorFits s.n a.struct.lens a.struct.kinds ∧ ∀ c i, c < i → i < s.n → a.struct.kinds i c ≠ triL := by
  refine simple_factor s.n _ (fun i j => s.kinds (q.getD i 0) (q.getD j 0)) _ ?_ (llt_of_fillCount h.2.1) h.2.2.2.2.2.2.2.1
  intro i hi j hj hij
  have hnd : q.Nodup := h.1.nodup_iff.2 List.nodup_range
  have hlen : q.length = s.n := by rw [h.1.length_eq, List.length_range]
  have hne : q.getD i 0 ≠ q.getD j 0 := by
    rw [List.getD_eq_getElem _ _ (by omega), List.getD_eq_getElem _ _ (by omega)]
    intro he
    exact hij ((hnd.getElem_inj_iff).1 he)
  have := hsimple _ (getD_perm_lt h.1 hi) _ (getD_perm_lt h.1 hj) hne
  rw [h.2.2.2.2.2.2.1 i hi, h.2.2.2.2.2.2.1 j hj]
  exact this

/-- **C61, success**: without triangular blocks off the diagonal the factorisation never reports failure. -/
theorem C61_success (o : BlockObj K) (N : ℕ) (A : ℕ → ℕ → K) (h : Analysed s q o.an) (hsimple : SimpleBlocks s.n s.lens s.kinds) :
    (o.compute N A).info = some true := by
  rw [compute_eq h]
  simp only [Option.some.injEq]
  exact blockLdlt_ok s.n N _ _ _ _ _ (llt_of_fillCount h.2.1) h.2.2.2.2.2.2.2.1 (h.simple hsimple).2

/-- **C61** for structures without triangular blocks off the diagonal (every structure the library builds), all block sizes and
block permutations: if no zero pivot occurs, `L D L^T = P^T A P`. -/
theorem C61_factorises (o : BlockObj K) (A : ℕ → ℕ → K) (h : Analysed s q o.an) (hsimple : SimpleBlocks s.n s.lens s.kinds)
    (hA : HasPattern s.n s.lens s.kinds (matCoeff A))
    (hpiv : ∀ k, k + 1 < segOffset s.lens s.n → (o.compute (segOffset s.lens s.n) A).vectorD k ≠ 0) :
    IsLDL (segOffset s.lens s.n) (permutedMat o.an.indices A) (unitLower (o.compute (segOffset s.lens s.n) A).mat)
      (o.compute (segOffset s.lens s.n) A).vectorD :=
  C61_factorises_partial o A h hA (h.simple hsimple).1 (C61_success o _ A h hsimple) hpiv

/-- **C61** for structures without triangular blocks off the diagonal: an existing factorisation is found. -/
theorem C61_finds (o : BlockObj K) (A L : ℕ → ℕ → K) (d : ℕ → K) (h : Analysed s q o.an) (hsimple : SimpleBlocks s.n s.lens s.kinds)
    (hA : HasPattern s.n s.lens s.kinds (matCoeff A)) (hL : IsLDL (segOffset s.lens s.n) (permutedMat o.an.indices A) L d) :
    (∀ k < segOffset s.lens s.n, (o.compute (segOffset s.lens s.n) A).vectorD k = d k) ∧
    ∀ i < segOffset s.lens s.n, ∀ j < segOffset s.lens s.n, unitLower (o.compute (segOffset s.lens s.n) A).mat i j = L i j :=
  C61_finds_partial o A L d h hA (h.simple hsimple).1 hL (C61_success o _ A h hsimple)

/-! ### solve and reconstruction -/

/-- **C61, solve**: with a factorisation of the permuted matrix stored and pivots above the threshold, `solveInPlace` solves
`A x = b` for every right-hand side, and reports success. -/
theorem C61_solves_partial (tiny : K) (o : BlockObj K) (A : ℕ → ℕ → K) (h : Analysed s q o.an)
    (hA : HasPattern s.n s.lens s.kinds (matCoeff A)) (hfit : FactorFits s.n o.an.struct.lens o.an.struct.kinds)
    (hon : o.n = segOffset s.lens s.n)
    (hL : IsLDL o.n (permutedMat o.an.indices A) (unitLower o.mat) o.vectorD)
    (hd : ∀ k < o.n, tiny < |o.vectorD k|) (hd0 : ∀ k < o.n, o.vectorD k ≠ 0) (w : ℕ) (b : ℕ → ℕ → K) :
    (o.solve tiny w b).1 = true ∧
    ∀ c < w, ∀ i < o.n, ∑ j ∈ Finset.range o.n, matCoeff A i j * (o.solve tiny w b).2 j c = b i c := by
  obtain ⟨hq, hf, hp1, hp2, hn, hperf, hlen, hkind, htr⟩ := id h
  have hrows := h.rows
  have hsz : segOffset o.an.struct.lens s.n = o.n := by rw [h.size, hon]
  rw [← hon] at hrows
  have hfill : HasPattern s.n o.an.struct.lens o.an.struct.kinds (unitLower o.mat) := by
    refine hasPattern_congr s.n _ _ _ _ _ (fun _ _ => rfl) (fun i hi j hj => (hkind i hi j hj).symm)
      (C51_fill_in s.n o.an.struct.lens _ _ _ o.vectorD (llt_of_fillCount hf) (h.pattern A hA) (by rw [hsz]; exact hL))
  have hshape := (C51_shape s.n _ (llt_of_fillCount hf)).2
  have hdk : ∀ i < s.n, o.an.struct.kinds i i = diag ∨ o.an.struct.kinds i i = triL := by
    intro i hi
    rw [hkind i hi i hi]
    exact hshape i hi
  -- blocks below the diagonal
  have hlow : ∀ i < s.n, ∀ j < s.n, j < i → HasKind (o.an.struct.kinds i j) (o.an.struct.lens i) (o.an.struct.lens j) fun r c =>
      o.mat (segOffset o.an.struct.lens i + r) (segOffset o.an.struct.lens j + c) := by
    intro i hi j hj hji r hr c hc hna
    have := hfill i hi j hj r hr c hc hna
    have hsep := segOffset_sep o.an.struct.lens hji
    simp only [unitLower] at this ⊢
    rwa [if_neg (by omega), if_pos (by omega)] at this
  have hdia : ∀ i < s.n, o.an.struct.kinds i i = diag → ∀ r < o.an.struct.lens i, ∀ c < o.an.struct.lens i, c < r →
      o.mat (segOffset o.an.struct.lens i + r) (segOffset o.an.struct.lens i + c) = 0 := by
    intro i hi hk r hr c hc hcr
    have := hfill i hi i hi r hr c hc (by rw [hk]; simp only [Allows]; omega)
    simp only [unitLower] at this
    rwa [if_neg (by omega), if_pos (by omega)] at this
  have hT1 : TriPattern true o.an.struct.n o.an.struct.lens o.an.struct.kinds o.mat := by
    rw [hn]
    exact ⟨fun i hi j hj hji => hlow i hi j hj (by simpa using hji), fun i hi j hj hji => hfit.1 j i (by simpa using hji) hi,
      fun i hi hk r hr c hc hcr => hdia i hi hk r hr c hc (by simpa using hcr)⟩
  have hT2 : TriPattern false o.an.structTr.n o.an.structTr.lens o.an.structTr.kinds (fun i j => o.mat j i) := by
    rw [htr]
    simp only [Sym.transpose, hn]
    refine ⟨fun i hi j hj hij => ?_, fun i hi j hj hij hk => ?_, fun i hi hk r hr c hc hcr => ?_⟩
    · rw [if_pos ⟨hi, hj⟩]
      exact C50_transpose _ _ _ _ (hlow j hj i hi (by simpa using hij))
    · rw [if_pos ⟨hi, hj⟩] at hk
      refine (hfit.1 i j (by simpa using hij) hj ?_).symm
      cases hk' : o.an.struct.kinds j i <;> rw [hk'] at hk <;> simp_all [BlockKind.trans]
    · rw [if_pos ⟨hi, hi⟩] at hk
      refine hdia i hi ?_ c hc r hr (by simpa using hcr)
      cases hk' : o.an.struct.kinds i i <;> rw [hk'] at hk <;> simp_all [BlockKind.trans]
  have s1 := C60_solves true true true o.an.struct o.mat w (fun r c => permTrMul o.an.indices (fun r => b r c) r)
    (by rw [hn]; simpa using hdk) (by simp) hT1
  obtain ⟨f1, s1⟩ := s1
  have hv1 : ∀ r j, triView true true o.mat r j = unitLower o.mat r j := by
    intro r j
    simp only [triView, unitLower, if_true]
  obtain ⟨y1, hy1⟩ : ∃ y1, y1 = btSolve true true true o.an.struct o.mat w (fun r c => permTrMul o.an.indices (fun r => b r c) r) := ⟨_, rfl⟩
  rw [← hy1] at f1 s1
  obtain ⟨z, hz⟩ : ∃ z : ℕ → ℕ → K, z = fun r c => if r < o.n then scaleByD tiny o.mat (fun r => y1.2 r c) r else y1.2 r c := ⟨_, rfl⟩
  have s2 := C60_solves false true true o.an.structTr (fun i j => o.mat j i) w z
    (by
      rw [htr]
      simp only [Sym.transpose, hn]
      intro i hi
      rw [if_pos ⟨hi, hi⟩]
      rcases hdk i hi with hk | hk <;> rw [hk] <;> simp [BlockKind.trans]) (by simp) hT2
  obtain ⟨f2, s2⟩ := s2
  obtain ⟨y2, hy2⟩ : ∃ y2, y2 = btSolve false true true o.an.structTr (fun i j => o.mat j i) w z := ⟨_, rfl⟩
  rw [← hy2] at f2 s2
  have hsolve : o.solve tiny w b = (y1.1 || y2.1, fun r c => permMul o.an.indices (fun r => y2.2 r c) r) := by
    simp only [BlockObj.solve]
    rw [← hy1, ← hz, ← hy2]
  have htrs : segOffset o.an.structTr.lens o.an.structTr.n = o.n := by
    rw [htr]
    simp only [Sym.transpose]
    rw [hn, hsz]
  rw [htrs] at s2
  rw [hn, hsz] at s1
  have hv2 : ∀ r j, triView false true (fun i j => o.mat j i) r j = unitLower o.mat j r := by
    intro r j
    simp only [triView, unitLower, if_true, Bool.false_eq_true, if_false]
    by_cases hrj : r = j
    · rw [if_pos hrj, if_pos hrj.symm]
    · rw [if_neg hrj, if_neg (Ne.symm hrj)]
  rw [hsolve]
  refine ⟨by simp [f1], ?_⟩
  intro c hc
  refine C53_solve o.n o.an.indices hrows A A (fun r => b r c) (fun r => y2.2 r c) fun i hi => ?_
  have e1 := s1 i hi c hc
  rw [← e1]
  have e2 : ∀ j < o.n, matCoeff (permuteInput o.an.indices A A) i j = permutedMat o.an.indices A i j :=
    fun j _ => matCoeff_permuteInput _ _ _ _ _
  calc ∑ j ∈ Finset.range o.n, matCoeff (permuteInput o.an.indices A A) i j * y2.2 j c
      = ∑ j ∈ Finset.range o.n, ∑ k ∈ Finset.range o.n, unitLower o.mat i k * o.vectorD k * (unitLower o.mat j k * y2.2 j c) := by
        refine Finset.sum_congr rfl fun j hj => ?_
        rw [e2 j (Finset.mem_range.1 hj), hL.eq i hi j (Finset.mem_range.1 hj), Finset.sum_mul]
        exact Finset.sum_congr rfl fun k _ => by ring
    _ = ∑ k ∈ Finset.range o.n, unitLower o.mat i k * o.vectorD k * ∑ j ∈ Finset.range o.n, unitLower o.mat j k * y2.2 j c := by
        rw [Finset.sum_comm]
        exact Finset.sum_congr rfl fun k _ => by rw [Finset.mul_sum]
    _ = ∑ j ∈ Finset.range o.n, triView true true o.mat i j * y1.2 j c := by
        refine Finset.sum_congr rfl fun k hk => ?_
        rw [Finset.mem_range] at hk
        have e3 := s2 k hk c hc
        simp only [hv2] at e3
        rw [e3, hv1, hz]
        simp only [scaleByD]
        have hk1 : tiny < |o.mat k k| := hd k hk
        have hk0 : o.mat k k ≠ 0 := hd0 k hk
        rw [if_pos hk, if_pos hk1, mul_assoc]
        congr 1
        simp only [BlockObj.vectorD]
        field_simp

/-- **C61, solve** after a `compute` on a structure without triangular blocks off the diagonal. -/
theorem C61_solves (tiny : K) (o : BlockObj K) (A : ℕ → ℕ → K) (h : Analysed s q o.an) (hsimple : SimpleBlocks s.n s.lens s.kinds)
    (hA : HasPattern s.n s.lens s.kinds (matCoeff A))
    (hd : ∀ k < segOffset s.lens s.n, tiny < |(o.compute (segOffset s.lens s.n) A).vectorD k|)
    (hd0 : ∀ k < segOffset s.lens s.n, (o.compute (segOffset s.lens s.n) A).vectorD k ≠ 0) (w : ℕ) (b : ℕ → ℕ → K) :
    ((o.compute (segOffset s.lens s.n) A).solve tiny w b).1 = true ∧
    ∀ c < w, ∀ i < segOffset s.lens s.n, ∑ j ∈ Finset.range (segOffset s.lens s.n),
      matCoeff A i j * ((o.compute (segOffset s.lens s.n) A).solve tiny w b).2 j c = b i c := by
  have hL := C61_factorises o A h hsimple hA fun k hk => hd0 k (by omega)
  have hn : (o.compute (segOffset s.lens s.n) A).n = segOffset s.lens s.n := by rw [compute_eq h]
  have han : (o.compute (segOffset s.lens s.n) A).an = o.an := by rw [compute_eq h]
  have := C61_solves_partial tiny (o.compute (segOffset s.lens s.n) A) A (by rw [han]; exact h) hA
    (by rw [han]; exact (h.simple hsimple).1) hn (by rw [hn, han]; exact hL) (by rw [hn]; exact hd) (by rw [hn]; exact hd0) w b
  rw [hn] at this
  exact this

/-- **C61, reconstruction**: `reconstructedMatrix()` gives the matrix back, in the original order. -/
theorem C61_reconstructs (o : BlockObj K) (A : ℕ → ℕ → K) (h : Analysed s q o.an) (hon : o.n = segOffset s.lens s.n)
    (hL : IsLDL o.n (permutedMat o.an.indices A) (unitLower o.mat) o.vectorD) :
    ∀ i < o.n, ∀ j < o.n, o.reconstruct i j = matCoeff A i j := by
  have hrows := h.rows
  rw [← hon] at hrows
  have hmem : ∀ i < o.n, o.an.indices.idxOf i < o.n ∧ o.an.indices.getD (o.an.indices.idxOf i) 0 = i := by
    intro i hi
    have hm : i ∈ o.an.indices := hrows.symm.subset (List.mem_range.2 hi)
    have hlt := List.idxOf_lt_length_of_mem hm
    have hlen : o.an.indices.length = o.n := by rw [hrows.length_eq, List.length_range]
    refine ⟨by omega, ?_⟩
    rw [List.getD_eq_getElem _ _ hlt, List.getElem_idxOf]
  have hu : unitLower (matCoeff o.mat) = unitLower o.mat := by
    funext i k
    simp only [unitLower, matCoeff]
    split
    · rfl
    · split
      · rw [if_pos (by omega)]
      · rfl
  intro i hi j hj
  obtain ⟨hi1, hi2⟩ := hmem i hi
  obtain ⟨hj1, hj2⟩ := hmem j hj
  have hR : ∀ i < o.n, ∀ j < o.n, denseReconstruct o.n (matCoeff o.mat) (fun i j => if i = j then 1 else 0) i j =
      permutedMat o.an.indices A i j := by
    intro i hi j hj
    rw [hL.eq i hi j hj]
    simp only [denseReconstruct, hu]
    refine Finset.sum_congr rfl fun k _ => ?_
    have h1 : ∑ l ∈ Finset.range o.n, unitLower o.mat l k * (if l = j then (1 : K) else 0) = unitLower o.mat j k := by
      simp [Finset.sum_ite_eq', hj]
    have h2 : matCoeff o.mat k k = o.vectorD k := by simp [matCoeff, BlockObj.vectorD]
    rw [h1, h2]
    ring
  simp only [BlockObj.reconstruct]
  rw [hR _ hi1 _ hj1, permutedMat, hi2, hj2]

end

/-! ### inertia (C57) -/

variable [IsStrictOrderedRing K]

/-- the row permutation as a permutation of the indices -/
theorem exists_indexPerm {N : ℕ} {idx : List ℕ} (h : idx.Perm (List.range N)) :
    ∃ σ : Equiv.Perm (Fin N), ∀ i : Fin N, (σ i : ℕ) = idx.getD i 0 := by
  have hlen : idx.length = N := by rw [h.length_eq, List.length_range]
  have hnd : idx.Nodup := h.nodup_iff.2 List.nodup_range
  have hinj : Function.Injective (fun i : Fin N => (⟨idx.getD i 0, getD_perm_lt h i.2⟩ : Fin N)) := by
    intro a b hab
    have hab' := congrArg Fin.val hab
    simp only at hab'
    rw [List.getD_eq_getElem _ _ (by omega), List.getD_eq_getElem _ _ (by omega)] at hab'
    exact Fin.ext ((hnd.getElem_inj_iff).1 hab')
  exact ⟨Equiv.ofBijective _ (Finite.injective_iff_bijective.1 hinj), fun i => rfl⟩

theorem permutedMat_eq {N : ℕ} (idx : List ℕ) (σ : Equiv.Perm (Fin N)) (hσ : ∀ i : Fin N, (σ i : ℕ) = idx.getD i 0) (A : ℕ → ℕ → K)
    (i j : ℕ) (hi : i < N) (hj : j < N) : permutedMat idx A i j = permuted σ (toMat N (matCoeff A)) i j := by
  rw [permuted, dif_pos ⟨hi, hj⟩, toMat, Matrix.of_apply, hσ, hσ]
  rfl

theorem IsLDL.hasInertia_permuted {n : ℕ} (M : Matrix (Fin n) (Fin n) K) (σ : Equiv.Perm (Fin n)) {L : ℕ → ℕ → K} {d : ℕ → K}
    (h : IsLDL n (permuted σ M) L d) : HasInertia M (Fintype.card {k : Fin n // 0 < d k}) (Fintype.card {k : Fin n // d k < 0})
      (Fintype.card {k : Fin n // d k = 0}) := by
  refine hasInertia_of_squares _ ((LinearEquiv.funCongrLeft K K σ).trans
    (LinearEquiv.ofInjectiveEndo _ (transposeMap_inj n L h.unit h.lower))) (fun k => d k) fun v => ?_
  have e : quad M v = quad (toMat n (permuted σ M)) (v ∘ σ) := by
    rw [quad_permuted]
    congr 1
    funext i
    simp
  rw [e, quad_ldl n _ L d h.eq]
  rfl

/-- **C57** for the block LDLT: the counts derived from the signs of `D` are the inertia of the matrix given to `compute`, in
its original order. -/
theorem C57_block_inertia {s : Sym} {q : List ℕ} (o : BlockObj K) (A : ℕ → ℕ → K) (h : Analysed s q o.an)
    (hsimple : SimpleBlocks s.n s.lens s.kinds) (hA : HasPattern s.n s.lens s.kinds (matCoeff A))
    (hp : ∀ k, k + 1 < segOffset s.lens s.n → (o.compute (segOffset s.lens s.n) A).vectorD k ≠ 0) :
    ∃ p n z, computeInertiaTuple (o.compute (segOffset s.lens s.n) A).signature = some (p, n, z) ∧
      HasInertia (toMat (segOffset s.lens s.n) (matCoeff A)) p n z := by
  obtain ⟨σ, hσ⟩ := exists_indexPerm h.rows
  have hL := C61_factorises o A h hsimple hA hp
  have hn : (o.compute (segOffset s.lens s.n) A).n = segOffset s.lens s.n := by rw [compute_eq h]
  have := IsLDL.hasInertia_permuted _ σ (hL.congr_left fun i hi j hj => (permutedMat_eq _ σ hσ A i j hi hj).symm)
  refine ⟨_, _, _, ?_, this⟩
  rw [C26_inertia_tuple]
  refine ⟨?_, ?_, ?_, ?_⟩
  · intro s hs
    obtain ⟨k, -, rfl⟩ := List.mem_map.1 hs
    exact cwiseSign_entries _
  · rw [BlockObj.signature, hn, count_map_range]
    exact Fintype.card_congr (Equiv.subtypeEquivRight fun k => (cwiseSign_eq_one _).symm)
  · rw [BlockObj.signature, hn, count_map_range]
    exact Fintype.card_congr (Equiv.subtypeEquivRight fun k => (cwiseSign_eq_neg _).symm)
  · rw [BlockObj.signature, hn, count_map_range]
    exact Fintype.card_congr (Equiv.subtypeEquivRight fun k => (cwiseSign_eq_zero _).symm)

/-- **C57** for the block LDLT: the solver's inertia check accepts exactly the matrices of the wanted inertia. -/
theorem C57_block_verdict {s : Sym} {q : List ℕ} (o : BlockObj K) (ndx nc : ℕ) (A : ℕ → ℕ → K) (h : Analysed s q o.an)
    (hsimple : SimpleBlocks s.n s.lens s.kinds) (hA : HasPattern s.n s.lens s.kinds (matCoeff A))
    (hN : segOffset s.lens s.n = ndx + nc)
    (hp : ∀ k, k + 1 < ndx + nc → (o.compute (ndx + nc) A).vectorD k ≠ 0) :
    checkInertia ndx nc (o.compute (ndx + nc) A).signature = some .ok ↔ HasInertia (toMat (ndx + nc) (matCoeff A)) ndx nc 0 := by
  obtain ⟨p, n, z, h1, h2⟩ := C57_block_inertia o A h hsimple hA (by rw [hN]; exact hp)
  rw [hN] at h1 h2
  rw [checkInertia, h1, Option.map_some]
  constructor
  · intro h
    by_cases a1 : p = ndx <;> by_cases a2 : n = nc <;> by_cases a3 : z = 0 <;> simp [a1, a2, a3] at h
    subst a1 a2 a3
    exact h2
  · intro h
    obtain ⟨rfl, rfl, rfl⟩ := HasInertia.unique h h2
    simp

/-! ### the solver's KKT matrices -/

theorem hasInertia_of_equiv {ι κ : Type} [Fintype ι] [DecidableEq ι] [Fintype κ] [DecidableEq κ] {A : Matrix ι ι K}
    {B : Matrix κ κ K} (T : (ι → K) ≃ₗ[K] (κ → K)) (h : ∀ v, quad A v = quad B (T v)) (hc : Fintype.card ι = Fintype.card κ)
    {p q z : ℕ} (hA : HasInertia A p q z) : HasInertia B p q z := by
  have key : ∀ P : K → Prop, {r | ∃ V : Submodule K (ι → K), Module.finrank K V = r ∧ ∀ v ∈ V, v ≠ 0 → P (quad A v)} =
      {r | ∃ V : Submodule K (κ → K), Module.finrank K V = r ∧ ∀ v ∈ V, v ≠ 0 → P (quad B v)} := by
    intro P
    ext r
    constructor
    · rintro ⟨V, hr, hV⟩
      refine ⟨V.map T.toLinearMap, ?_, ?_⟩
      · rw [← hr]
        exact (LinearEquiv.submoduleMap T V).finrank_eq.symm
      · rintro _ ⟨v, hv, rfl⟩ hne
        have := hV v hv (by rintro rfl; exact hne (map_zero _))
        rw [h] at this
        exact this
    · rintro ⟨V, hr, hV⟩
      refine ⟨V.map T.symm.toLinearMap, ?_, ?_⟩
      · rw [← hr]
        exact (LinearEquiv.submoduleMap T.symm V).finrank_eq.symm
      · rintro _ ⟨v, hv, rfl⟩ hne
        rw [h]
        simp only [LinearEquiv.coe_coe, LinearEquiv.apply_symm_apply]
        exact hV v hv (by rintro rfl; exact hne (map_zero _))
  obtain ⟨h1, h2, h3⟩ := hA
  rw [key (fun x => 0 < x)] at h1
  rw [key (fun x => x < 0)] at h2
  exact ⟨h1, h2, by rw [h3, hc]⟩

/-- inertia does not depend on how the rows are numbered -/
theorem hasInertia_flatKkt {n m : ℕ} (A : Matrix (Fin n ⊕ Fin m) (Fin n ⊕ Fin m) K) (p q z : ℕ) :
    HasInertia (flatKkt A) p q z ↔ HasInertia A p q z := by
  constructor
  · exact hasInertia_of_equiv (LinearEquiv.funCongrLeft K K finSumFinEquiv) (fun v => by rw [quad_flatKkt]; rfl) (by simp)
  · refine hasInertia_of_equiv (LinearEquiv.funCongrLeft K K finSumFinEquiv.symm) (fun v => ?_) (by simp)
    rw [quad_flatKkt]
    congr 1
    funext a
    simp [LinearEquiv.funCongrLeft]

theorem simple_default (g : ℕ → ℕ → BlockKind) (primal dual : List ℕ) :
    SimpleBlocks (defaultStructure g primal dual).n (defaultStructure g primal dual).lens (defaultStructure g primal dual).kinds := by
  have hpat := C67_default_pattern g primal dual
  have hn := (C67_sizes g primal dual).2.2.1
  intro i hi j hj hij
  rw [hn] at hi hj
  by_cases h1 : i < primal.length
  · have := hpat.1 i j h1 hj
    exact ⟨Or.inr (Or.inr this), fun hk => by rw [this] at hk; cases hk⟩
  by_cases h2 : j < primal.length
  · have := hpat.2.1 i j hi h2
    exact ⟨Or.inr (Or.inr this), fun hk => by rw [this] at hk; cases hk⟩
  have := hpat.2.2.2.1 (i - primal.length) (j - primal.length) (by omega) (by omega) (by omega)
  rw [show primal.length + (i - primal.length) = i from by omega, show primal.length + (j - primal.length) = j from by omega] at this
  exact ⟨Or.inl this, fun hk => by rw [this] at hk; cases hk⟩

theorem analysed_allocated (g : ℕ → ℕ → BlockKind) (primal dual : List ℕ) (hne : primal ≠ [] ∨ dual ≠ []) (fuel : ℕ)
    (hfuel : (primal.length + dual.length).factorial ≤ fuel) :
    ∃ a, allocateBlockSparse fuel g primal dual = some a ∧ Analysed (defaultStructure g primal dual) a.perm a := by
  have hsz := C67_sizes g primal dual
  refine analysed_find _ _ fuel (by rw [hsz.2.2.2.1]; exact hsz.2.2.2.2) ?_ rfl ?_ (by rw [hsz.2.2.1]; exact hfuel)
  · rw [hsz.2.2.1]
    have h1 : primal ≠ [] → 0 < primal.length := List.length_pos_of_ne_nil
    have h2 : dual ≠ [] → 0 < dual.length := List.length_pos_of_ne_nil
    rcases hne with h | h
    · have := h1 h; omega
    · have := h2 h; omega
  · intro i hi
    rw [hsz.2.2.1] at hi
    have hpat := C67_default_pattern g primal dual
    by_cases h : i < primal.length
    · exact Or.inr (hpat.1 i i h (by omega))
    · have := hpat.2.2.1 (i - primal.length) (by omega)
      rw [show primal.length + (i - primal.length) = i from by omega] at this
      exact Or.inl this

/-- **C78** for the block backend: the solver allocated for any primal and dual block sizes, given a KKT matrix with positive
definite Hessian block and negative dual diagonal (only the lower half is read), factorises it (success, no zero pivot, whatever
block order the search selected), the inertia check accepts it, and the solve is exact. -/
theorem C78_block_kkt (tiny : K) (g : ℕ → ℕ → BlockKind) (primal dual : List ℕ) (o : BlockObj K) (fuel : ℕ)
    (hne : primal ≠ [] ∨ dual ≠ []) (hfuel : (primal.length + dual.length).factorial ≤ fuel)
    (ho : allocateBlockSparse fuel g primal dual = some o.an)
    (Hs : Matrix (Fin primal.sum) (Fin primal.sum) K) (hsym : Hs.IsSymm) (hH : PosDef Hs) (J : Fin dual.sum → Fin primal.sum → K)
    (d : Fin dual.sum → K) (hd : ∀ i, d i < 0) (A : ℕ → ℕ → K)
    (hA : ∀ i j : Fin (primal.sum + dual.sum), j ≤ i → A i j = flatKkt (kktMatrix Hs J d) i j) :
    let F := o.compute (primal.sum + dual.sum) A
    F.info = some true ∧
    (∀ k < primal.sum + dual.sum, if o.an.indices.getD k 0 < primal.sum then 0 < F.vectorD k else F.vectorD k < 0) ∧
    checkInertia primal.sum dual.sum F.signature = some .ok ∧
    ((∀ k < primal.sum + dual.sum, tiny < |F.vectorD k|) → ∀ w b, (F.solve tiny w b).1 = true ∧
      ∀ c < w, ∀ i : Fin (primal.sum + dual.sum),
        ∑ j : Fin (primal.sum + dual.sum), flatKkt (kktMatrix Hs J d) i j * (F.solve tiny w b).2 j c = b i c) := by
  intro F
  obtain ⟨a, ha, h⟩ := analysed_allocated g primal dual hne fuel hfuel
  rw [ho] at ha
  obtain rfl := Option.some.inj ha
  have hsz := C67_sizes g primal dual
  have hN := hsz.2.2.2.1
  have hsimple := simple_default g primal dual
  have hflat : ∀ i j : Fin (primal.sum + dual.sum), flatKkt (kktMatrix Hs J d) i j = flatKkt (kktMatrix Hs J d) j i := by
    intro i j
    simp only [flatKkt, Matrix.of_apply]
    exact (C24_symmetric Hs hsym J d).apply _ _
  have hM : ∀ i j : Fin (primal.sum + dual.sum), matCoeff A i j = flatKkt (kktMatrix Hs J d) i j := by
    intro i j
    simp only [matCoeff]
    split_ifs with hij
    · exact hA i j hij
    · rw [hA j i (by rw [Fin.le_def]; omega), hflat]
  have hpat : HasPattern (defaultStructure g primal dual).n (defaultStructure g primal dual).lens
      (defaultStructure g primal dual).kinds (matCoeff A) := by
    rw [hsz.2.2.1]
    have h0 := C67_kkt_has_pattern g primal dual (permuted 1 (flatKkt (kktMatrix Hs J d))) (by
      intro i j hi hj hij
      rw [permuted]
      split_ifs with hlt
      · obtain ⟨i, rfl⟩ : ∃ a, i = primal.sum + a := ⟨i - primal.sum, by omega⟩
        obtain ⟨j, rfl⟩ : ∃ a, j = primal.sum + a := ⟨j - primal.sum, by omega⟩
        have ei : finSumFinEquiv.symm (⟨primal.sum + i, hlt.1⟩ : Fin (primal.sum + dual.sum)) = Sum.inr ⟨i, by omega⟩ := by
          rw [Equiv.symm_apply_eq]; rfl
        have ej : finSumFinEquiv.symm (⟨primal.sum + j, hlt.2⟩ : Fin (primal.sum + dual.sum)) = Sum.inr ⟨j, by omega⟩ := by
          rw [Equiv.symm_apply_eq]; rfl
        simp only [Equiv.Perm.coe_one, id_eq, flatKkt, Matrix.of_apply, ei, ej, kktMatrix, Matrix.fromBlocks_apply₂₂]
        rw [Matrix.diagonal_apply_ne]
        intro hc
        simp only [Fin.mk.injEq] at hc
        omega
      · rfl)
    intro i hi j hj r hr c hc hna
    have := h0 i hi j hj r hr c hc hna
    have hi' := segOffset_lt (n := (defaultStructure g primal dual).n) (defaultStructure g primal dual).lens (by rw [hsz.2.2.1]; exact hi) hr
    have hj' := segOffset_lt (n := (defaultStructure g primal dual).n) (defaultStructure g primal dual).lens (by rw [hsz.2.2.1]; exact hj) hc
    rw [hN] at hi' hj'
    have e := hM ⟨_, hi'⟩ ⟨_, hj'⟩
    simp only at e this ⊢
    rw [e, ← this, permuted, dif_pos ⟨hi', hj'⟩]
    rfl
  have hrows := h.rows
  rw [hN] at hrows
  obtain ⟨σ, hσ⟩ := exists_indexPerm hrows
  have hmat : toMat (primal.sum + dual.sum) (matCoeff A) = flatKkt (kktMatrix Hs J d) := by
    ext i j
    exact hM i j
  obtain ⟨L, dd, hL, hpiv⟩ := C78_factorisation_exists _ _ _ (quasiDefinite_kkt Hs hsym hH J d hd σ)
  have hL' : IsLDL (primal.sum + dual.sum) (permutedMat o.an.indices A) L dd :=
    hL.congr_left fun i hi j hj => by rw [permutedMat_eq _ σ hσ A i j hi hj, hmat]
  have hfind := (C61_finds o A L dd h hsimple hpat (by rw [hN]; exact hL')).1
  rw [hN] at hfind
  have hok := C61_success o (primal.sum + dual.sum) A h hsimple
  have hne0 : ∀ k < primal.sum + dual.sum, F.vectorD k ≠ 0 := by
    intro k hk
    have h1 := hpiv k hk
    rw [show F.vectorD k = dd k from hfind k hk]
    split_ifs at h1
    · exact h1.ne'
    · exact h1.ne
  refine ⟨hok, fun k hk => ?_, ?_, fun ht w b => ?_⟩
  · have h1 := hpiv k hk
    rw [dif_pos hk] at h1
    simp only [decide_eq_true_eq] at h1
    rw [hσ ⟨k, hk⟩] at h1
    rw [show F.vectorD k = dd k from hfind k hk]
    exact h1
  · rw [C57_block_verdict o _ _ A h hsimple hpat hN fun k hk => hne0 k (by omega), hmat, hasInertia_flatKkt, C24_inertia_iff _ _ _ hd]
    intro v hv
    rw [quad_reduced]
    have h1 := hH v hv
    have h2 : 0 ≤ ∑ i, 1 / -d i * (∑ k, J i k * v k) ^ 2 :=
      Finset.sum_nonneg fun i _ => mul_nonneg (one_div_nonneg.2 (by linarith [hd i])) (sq_nonneg _)
    linarith
  · have := C61_solves tiny o A h hsimple hpat (by rw [hN]; exact ht) (by rw [hN]; exact hne0) w b
    rw [hN] at this
    refine ⟨this.1, fun c hc i => ?_⟩
    rw [← this.2 c hc i i.2, ← Fin.sum_univ_eq_sum_range]
    exact Finset.sum_congr rfl fun j _ => by rw [hM]

/-! ### concrete cases -/

namespace Demo

/-- a structure given by tables -/
def tabSym (ks : List (List BlockKind)) (ls : List ℕ) : Sym :=
  { n := ls.length, lens := fun i => ls.getD i 0, kinds := fun i j => (ks.getD i []).getD j zero, performed := false }

def tabMat (rows : List (List ℚ)) : ℕ → ℕ → ℚ := fun i j => (rows.getD i []).getD j 0

/-- a new object after `analyzePattern()` -/
def analysedObj (s : Sym) : BlockObj ℚ :=
  { (BlockObj.init (segOffset s.lens s.n) s : BlockObj ℚ) with an := (analyzePattern (BlockAnalysis.init (segOffset s.lens s.n) s)).2 }

/-- a sufficient check of the pattern for block sizes at most `b` -/
theorem hasPattern_check (s : Sym) (M : ℕ → ℕ → ℚ) (b : ℕ) (hb : ∀ i < s.n, s.lens i ≤ b)
    (h : ∀ i < s.n, ∀ j < s.n, ∀ r < b, ∀ c < b, (r < s.lens i ∧ c < s.lens j ∧ ¬ Allows (s.kinds i j) r c) →
      M (segOffset s.lens i + r) (segOffset s.lens j + c) = 0) : HasPattern s.n s.lens s.kinds M := by
  intro i hi j hj r hr c hc hna
  have := hb i hi
  have := hb j hj
  exact h i hi j hj r (by omega) c (by omega) ⟨hr, hc, hna⟩

def ldSym : Sym := tabSym [[diag, dense, zero], [dense, dense, dense], [zero, dense, diag]] [2, 1, 2]
def ldMat : ℕ → ℕ → ℚ := tabMat [[2, 0, 1, 0, 0], [0, -3, 1, 0, 0], [1, 1, 4, 1, 2], [0, 0, 1, -1, 0], [0, 0, 2, 0, 5]]

theorem ldSym_simple : SimpleBlocks ldSym.n ldSym.lens ldSym.kinds := by
  have : ∀ i < 3, ∀ j < 3, i ≠ j → (ldSym.kinds i j = zero ∨ ldSym.kinds i j = diag ∨ ldSym.kinds i j = dense) ∧
    (ldSym.kinds i j = diag → ldSym.lens i = ldSym.lens j) := by decide
  exact this

set_option synthInstance.maxHeartbeats 400000 in
set_option synthInstance.maxSize 1000 in
theorem ldMat_pattern : HasPattern ldSym.n ldSym.lens ldSym.kinds (matCoeff ldMat) := by
  refine hasPattern_check ldSym _ 2 (by decide) ?_
  have : ∀ i < 3, ∀ j < 3, ∀ r < 2, ∀ c < 2, (r < ldSym.lens i ∧ c < ldSym.lens j ∧ ¬ Allows (ldSym.kinds i j) r c) →
      matCoeff ldMat (segOffset ldSym.lens i + r) (segOffset ldSym.lens j + c) = 0 := by decide +kernel
  exact this

/-- the analysed object with the user's permutation `2, 0, 1` -/
def ldSetObj : BlockObj ℚ :=
  { (BlockObj.init 5 ldSym : BlockObj ℚ) with an := ((setBlockPermutation (BlockAnalysis.init 5 ldSym) (some [2, 0, 1])).getD
      (BlockAnalysis.init 5 ldSym)) }

theorem ldSetObj_analysed : Analysed ldSym [2, 0, 1] ldSetObj.an := by
  obtain ⟨a, h1, h2⟩ := analysed_set ldSym 5 (by decide) [2, 0, 1] (by decide) rfl (by decide) (by decide)
  have : ldSetObj.an = a := by
    simp only [ldSetObj, h1, Option.getD_some]
  rw [this]
  exact h2

end Demo

/-- C61: the hypotheses are met, with a proper block permutation and an indefinite matrix -/
example : Analysed Demo.ldSym [2, 0, 1] Demo.ldSetObj.an ∧ SimpleBlocks Demo.ldSym.n Demo.ldSym.lens Demo.ldSym.kinds ∧
    HasPattern Demo.ldSym.n Demo.ldSym.lens Demo.ldSym.kinds (matCoeff Demo.ldMat) ∧ segOffset Demo.ldSym.lens Demo.ldSym.n = 5 ∧
    (∀ k < 5, (1 / 1000 : ℚ) < |(Demo.ldSetObj.compute 5 Demo.ldMat).vectorD k|) ∧
    Demo.ldSetObj.an.indices = [3, 4, 0, 1, 2] :=
  ⟨Demo.ldSetObj_analysed, Demo.ldSym_simple, Demo.ldMat_pattern, by decide, by decide +kernel, by decide⟩

/-- and the answer is exact -/
example : ∀ i < 5, ∑ j ∈ Finset.range 5, matCoeff Demo.ldMat i j *
    ((Demo.ldSetObj.compute 5 Demo.ldMat).solve (1 / 1000) 1 fun r _ => r).2 j 0 = i := by
  have := (C61_solves (1 / 1000) Demo.ldSetObj Demo.ldMat Demo.ldSetObj_analysed Demo.ldSym_simple Demo.ldMat_pattern
    (by decide +kernel) (by decide +kernel) 1 (fun r _ => (r : ℚ))).2 0 (by omega)
  exact this

set_option synthInstance.maxHeartbeats 400000 in
set_option synthInstance.maxSize 1000 in
/-- **C61 is false for structures with triangular blocks**: with a `Diag` pivot, a `TriU` block below it and a `Diag` block
below that, the symbolic factorisation succeeds and `compute` reports success with nonzero pivots, but the result is not a
factorisation: `L D L^T` differs from the (unpermuted) matrix in the entry `(5, 3)`. The product `Diag * TriL` is subtracted
as if it were diagonal in one half. -/
theorem C61_diag_triU_false : ∃ (s : Sym) (A : ℕ → ℕ → ℚ), s.n = 3 ∧ (∀ i < 3, s.lens i = 2) ∧
    (∀ i < 3, ∀ j < 3, s.kinds j i = BlockKind.trans (s.kinds i j)) ∧ (∀ i < 3, s.kinds i i = diag ∨ s.kinds i i = dense) ∧
    HasPattern s.n s.lens s.kinds (matCoeff A) ∧ Analysed s (List.range 3) (Demo.analysedObj s).an ∧
    ((Demo.analysedObj s).compute 6 A).info = some true ∧
    (∀ k < 6, ((Demo.analysedObj s).compute 6 A).vectorD k ≠ 0) ∧
    ((Demo.analysedObj s).compute 6 A).reconstruct 5 3 ≠ matCoeff A 5 3 := by
  refine ⟨Demo.tabSym [[diag, triL, diag], [triU, dense, dense], [diag, dense, dense]] [2, 2, 2],
    Demo.tabMat [[2, 0, 1, 0, 1, 0], [0, 3, 1, 1, 0, 2], [1, 1, 9, 1, 1, 2], [0, 1, 1, 8, 3, 1], [1, 0, 1, 3, 12, 1],
      [0, 2, 2, 1, 1, 13]], rfl, by decide, by decide, by decide, ?_, ?_, by decide +kernel, by decide +kernel, by decide +kernel⟩
  · refine Demo.hasPattern_check _ _ 2 (by decide) ?_
    decide +kernel
  · exact analysed_pattern _ (by decide) rfl (by decide)

/-- **C61 is false for structures with triangular blocks**: with a `Diag` pivot and a `TriL` block below it, the symbolic
factorisation succeeds, but `compute` reports failure on every matrix, also those with nonzero pivots. -/
theorem C61_triL_fails : ∃ s : Sym, s.n = 2 ∧ (∀ i < 2, s.lens i = 2) ∧
    (∀ i < 2, ∀ j < 2, s.kinds j i = BlockKind.trans (s.kinds i j)) ∧ (∀ i < 2, s.kinds i i = diag ∨ s.kinds i i = dense) ∧
    Analysed s (List.range 2) (Demo.analysedObj s).an ∧
    ∀ A : ℕ → ℕ → ℚ, ((Demo.analysedObj s).compute 4 A).info = some false := by
  refine ⟨Demo.tabSym [[diag, triU], [triL, dense]] [2, 2], rfl, by decide, by decide, by decide,
    analysed_pattern _ (by decide) rfl (by decide), fun A => ?_⟩
  have h : Analysed _ _ (Demo.analysedObj (Demo.tabSym [[diag, triU], [triL, dense]] [2, 2])).an :=
    analysed_pattern (Demo.tabSym [[diag, triU], [triL, dense]] [2, 2]) (by decide) rfl (by decide)
  rw [compute_eq h]
  rfl

/-- **C56, negative**: on a new object, `sign()` of the block factorisation misses a trailing 1x1 block (the recursion stops
before its pivot), and a `TriL` pivot of size one overwrites what was known. -/
theorem C56_block_sign_false :
    (∃ (s : Sym) (A : ℕ → ℕ → ℚ), ((Demo.analysedObj s).compute 3 A).info = some true ∧
      ((Demo.analysedObj s).compute 3 A).sign = .negSemi ∧ 0 < ((Demo.analysedObj s).compute 3 A).vectorD 2 ∧
      ∃ v, 0 < quad (toMat 3 (matCoeff A)) v) ∧
    (∃ (s : Sym) (A : ℕ → ℕ → ℚ), ((Demo.analysedObj s).compute 3 A).info = some true ∧
      ((Demo.analysedObj s).compute 3 A).sign = .posSemi ∧ ((Demo.analysedObj s).compute 3 A).vectorD 0 < 0 ∧
      ∃ v, quad (toMat 3 (matCoeff A)) v < 0) := by
  refine ⟨⟨Demo.tabSym [[dense, zero], [zero, dense]] [2, 1], fun i j => if i = j then (if i = 2 then 1 else -1) else 0,
    by decide +kernel, by decide +kernel, by decide +kernel, fun i => if i = 2 then 1 else 0, by decide +kernel⟩,
    ⟨Demo.tabSym [[dense, zero, zero], [zero, dense, zero], [zero, zero, dense]] [1, 1, 1],
      fun i j => if i = j then (if i = 0 then -1 else 1) else 0,
    by decide +kernel, by decide +kernel, by decide +kernel, fun i => if i = 0 then 1 else 0, by decide +kernel⟩⟩

namespace Demo

/-- the allocated solver for one primal and two dual blocks -/
def kktObj : BlockObj ℚ :=
  { (BlockObj.init 3 (defaultStructure (fun _ _ => zero) [1] [1, 1]) : BlockObj ℚ) with
    an := ((allocateBlockSparse 6 (fun _ _ => zero) [1] [1, 1]).getD (BlockAnalysis.init 3 ldSym)) }

end Demo

theorem Demo.posDef_one : PosDef (Matrix.of fun _ _ => 1 : Matrix (Fin 1) (Fin 1) ℚ) := by
  intro v hv
  have : v 0 ≠ 0 := fun h => hv (funext fun i => by rw [Subsingleton.elim i 0]; exact h)
  simpa [quad] using this

/-- C78: the hypotheses are met by an allocated solver with one primal and two dual blocks -/
example (A : ℕ → ℕ → ℚ) (hA : ∀ i j : Fin 3, j ≤ i → A i j = flatKkt (kktMatrix (n := 1) (m := 2) (Matrix.of fun _ _ => 1)
    (fun i _ => ((i : ℕ) : ℚ) + 1) fun i => -((i : ℕ) : ℚ) - 1) i j) :
    (Demo.kktObj.compute 3 A).info = some true ∧ checkInertia 1 2 (Demo.kktObj.compute 3 A).signature = some .ok := by
  have h := C78_block_kkt (1 / 1000) (fun _ _ => zero) [1] [1, 1] Demo.kktObj 6 (by simp) (by decide) (by
      obtain ⟨a, h1, -⟩ := analysed_allocated (fun _ _ => zero) [1] [1, 1] (by simp) 6 (by decide)
      simp only [Demo.kktObj, h1, Option.getD_some]) (Matrix.of fun _ _ => 1) (by ext i j; rfl) Demo.posDef_one
      (fun i _ => ((i : ℕ) : ℚ) + 1) (fun i => -((i : ℕ) : ℚ) - 1) (fun i => by
      have : (0 : ℚ) ≤ ((i : ℕ) : ℚ) := Nat.cast_nonneg _
      linarith) A hA
  exact ⟨h.1, h.2.2.1⟩

end ProxNLP
