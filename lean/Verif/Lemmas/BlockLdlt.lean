import Verif.Model.BlockLdlt
import Verif.Lemmas.BlockTri
import Verif.Lemmas.DenseLdlt
import Verif.Props.DenseLdlt
import Verif.Props.BlockKind

/-! Lemmas on the block LDLT factorisation. -/

set_option linter.unusedSectionVars false
namespace ProxNLP

open BlockKind Spec

variable {K : Type} [Field K] [LinearOrder K]

theorem onPart_iff (k : BlockKind) (r c : ℕ) : onPart k r c = true ↔ Allows k r c := by
  cases k <;> simp [onPart, Allows]

theorem segOffset_forRange (lens : ℕ → ℕ) (i : ℕ) : forRange 0 i (fun k acc => acc + lens k) 0 = segOffset lens i := by
  rw [forRange_add]
  simp [segOffset]

theorem fwdUnit_congr (n : ℕ) (M M' : ℕ → ℕ → K) (b b' : ℕ → K) (hM : ∀ i < n, ∀ k < i, M' i k = M i k)
    (hb : ∀ i < n, b' i = b i) : ∀ i < n, fwdUnit n M' b' i = fwdUnit n M b i := by
  intro i
  induction i using Nat.strong_induction_on with
  | _ i ih =>
    intro hi
    have h1 := (fwdUnit_spec n M b).1 i hi
    have h2 := (fwdUnit_spec n M' b').1 i hi
    have h3 : ∑ k ∈ Finset.range i, M' i k * fwdUnit n M' b' k = ∑ k ∈ Finset.range i, M i k * fwdUnit n M b k := by
      refine Finset.sum_congr rfl fun k hk => ?_
      rw [Finset.mem_range] at hk
      rw [hM i hi k hk, ih k hk (by omega)]
    rw [h3, hb i hi, ← h1] at h2
    exact add_left_cancel h2

/-- the unscaled row: what is divided by the pivots -/
def bldRow (pivot : BlockKind) (bs : ℕ) (M : ℕ → ℕ → K) (x c : ℕ) : K :=
  if pivot = triL then fwdUnit bs M (fun c => M x c) c else M x c

theorem bldRow_congr (pivot : BlockKind) (bs : ℕ) (M M' : ℕ → ℕ → K) (x : ℕ) (h0 : ∀ i < bs, ∀ c < bs, M' i c = M i c)
    (hx : ∀ c < bs, M' x c = M x c) (c : ℕ) (hc : c < bs) : bldRow pivot bs M' x c = bldRow pivot bs M x c := by
  unfold bldRow
  split
  · exact fwdUnit_congr bs _ _ _ _ (fun i hi k hk => h0 i hi k (by omega)) hx c hc
  · exact hx c hc

/-- one block of the column -/
theorem bldBlock_spec (pivot kind : BlockKind) (bs bsi o : ℕ) (M M' : ℕ → ℕ → K) (ho : bs ≤ o)
    (hk : ¬ (pivot = triL ∧ kind = diag)) (h : bldBlock pivot kind bs bsi o M = some M') :
    (∀ i c, ¬ (o ≤ i ∧ i < o + bsi ∧ c < bs) → ¬ (i < bs ∧ o ≤ c ∧ c < o + bsi) → M' i c = M i c) ∧
    (kind ≠ triL) ∧
    (∀ r < bsi, ∀ c < bs, kind ≠ zero → M' (o + r) c =
      if Allows kind r c then bldRow pivot bs M (o + r) c * (1 / M c c) else bldRow pivot bs M (o + r) c) ∧
    (∀ r < bsi, ∀ c < bs, kind = zero → M' (o + r) c = M (o + r) c) ∧
    (∀ r < bsi, ∀ c < bs, Allows kind r c → M' c (o + r) = bldRow pivot bs M (o + r) c) := by
  by_cases hz : kind = zero
  · subst hz
    cases h
    exact ⟨fun _ _ _ _ => rfl, by simp, fun _ _ _ _ h => absurd rfl h, fun _ _ _ _ _ => rfl, fun _ _ _ _ h => h.elim⟩
  by_cases ht : kind = triL
  · subst ht
    cases h
  have hpart : bldPart pivot kind = kind := by unfold bldPart; rw [if_neg hk]
  have hM' : M' = bldScale kind bs bsi o (bldCopy kind bs bsi o (if pivot = triL then bldSolve bs bsi o M else M)) := by
    cases kind <;> simp_all [bldBlock]
  -- entries after the solve
  obtain ⟨S, hS⟩ : ∃ S, S = (if pivot = triL then bldSolve bs bsi o M else M) := ⟨_, rfl⟩
  rw [← hS] at hM'
  have s_row : ∀ r < bsi, ∀ c < bs, S (o + r) c = bldRow pivot bs M (o + r) c := by
    intro r hr c hc
    rw [hS]
    unfold bldRow
    by_cases hp : pivot = triL
    · rw [if_pos hp, if_pos hp, bldSolve, if_pos (by omega)]
    · rw [if_neg hp, if_neg hp]
  have s_out : ∀ i c, ¬ (o ≤ i ∧ i < o + bsi ∧ c < bs) → S i c = M i c := by
    intro i c hic
    rw [hS]
    by_cases hp : pivot = triL
    · rw [if_pos hp, bldSolve, if_neg hic]
    · rw [if_neg hp]
  refine ⟨?_, ht, ?_, fun _ _ _ _ h => absurd h hz, ?_⟩
  · intro i c h1 h2
    rw [hM', bldScale, if_neg (by tauto), bldCopy, if_neg (by tauto), s_out i c h1]
  · intro r hr c hc _
    rw [hM', bldScale, Nat.add_sub_cancel_left]
    have e1 : bldCopy kind bs bsi o S (o + r) c = S (o + r) c := by rw [bldCopy, if_neg (by omega)]
    have e2 : bldCopy kind bs bsi o S c c = M c c := by rw [bldCopy, if_neg (by omega), s_out c c (by omega)]
    rw [e1, e2, s_row r hr c hc]
    by_cases ha : Allows kind r c
    · rw [if_pos ⟨by omega, by omega, hc, (onPart_iff ..).2 ha⟩, if_pos ha]
    · rw [if_neg (fun h => ha ((onPart_iff ..).1 h.2.2.2)), if_neg ha]
  · intro r hr c hc ha
    rw [hM', bldScale, if_neg (by omega), bldCopy, Nat.add_sub_cancel_left,
      if_pos ⟨hc, by omega, by omega, (onPart_iff ..).2 ha⟩,
      s_row r hr c hc]

/-- the whole column -/
theorem bldColumn_spec (lens : ℕ → ℕ) (F : ℕ → ℕ → BlockKind) (m : ℕ) (M M' : ℕ → ℕ → K)
    (hk : ∀ i, 1 ≤ i → i < m + 1 → ¬ (F 0 0 = triL ∧ F i 0 = diag)) (h : bldColumn lens F m M = (true, M')) :
    (∀ i c, (i < lens 0 ∧ c < lens 0) ∨ (lens 0 ≤ i ∧ lens 0 ≤ c) ∨ (segOffset lens (m + 1) ≤ i) → M' i c = M i c) ∧
    ∀ i, 1 ≤ i → i < m + 1 →
      (F i 0 ≠ triL) ∧
      (∀ r < lens i, ∀ c < lens 0, F i 0 ≠ zero → M' (segOffset lens i + r) c =
        if Allows (F i 0) r c then bldRow (F 0 0) (lens 0) M (segOffset lens i + r) c * (1 / M c c)
        else bldRow (F 0 0) (lens 0) M (segOffset lens i + r) c) ∧
      (∀ r < lens i, ∀ c < lens 0, F i 0 = zero → M' (segOffset lens i + r) c = M (segOffset lens i + r) c) ∧
      (∀ r < lens i, ∀ c < lens 0, Allows (F i 0) r c → M' c (segOffset lens i + r) =
        bldRow (F 0 0) (lens 0) M (segOffset lens i + r) c) := by
  induction m generalizing M' with
  | zero =>
    cases h
    exact ⟨fun _ _ _ => rfl, fun i h1 h2 => by omega⟩
  | succ m ih =>
    rw [bldColumn] at h
    obtain ⟨f, T, hT⟩ : ∃ f T, bldColumn lens F m M = (f, T) := ⟨_, _, rfl⟩
    rw [hT] at h
    cases f with
    | false => simp at h
    | true =>
      obtain ⟨ih1, ih2⟩ := ih T (fun i h1 h2 => hk i h1 (by omega)) hT
      simp only [segOffset_forRange] at h
      have h01 : lens 0 ≤ segOffset lens (m + 1) := by
        have := segOffset_mono lens (i := 1) (j := m + 1) (by omega)
        simpa [segOffset] using this
      cases hb : bldBlock (F 0 0) (F (m + 1) 0) (lens 0) (lens (m + 1)) (segOffset lens (m + 1)) T with
      | none => rw [hb] at h; simp at h
      | some T' =>
        rw [hb] at h
        obtain rfl : T' = M' := by simpa using h
        obtain ⟨b1, b2, b3, b4, b5⟩ := bldBlock_spec _ _ _ _ _ T T' h01 (hk (m + 1) (by omega) (by omega)) hb
        have hso := segOffset_succ lens (m + 1)
        refine ⟨?_, ?_⟩
        · intro i c hic
          rw [b1 i c (by omega) (by omega)]
          exact ih1 i c (by omega)
        · intro i hi1 hi2
          by_cases him : i = m + 1
          · subst him
            have hrow : ∀ r < lens (m + 1), ∀ c < lens 0, bldRow (F 0 0) (lens 0) T (segOffset lens (m + 1) + r) c =
                bldRow (F 0 0) (lens 0) M (segOffset lens (m + 1) + r) c := by
              intro r hr c hc
              exact bldRow_congr _ _ _ _ _ (fun i hi c hc => ih1 i c (by omega)) (fun c hc => ih1 _ c (by omega)) c hc
            refine ⟨b2, ?_, ?_, ?_⟩
            · intro r hr c hc hz
              rw [b3 r hr c hc hz, hrow r hr c hc, ih1 c c (by omega)]
            · intro r hr c hc hz
              rw [b4 r hr c hc hz, ih1 _ c (by omega)]
            · intro r hr c hc ha
              rw [b5 r hr c hc ha, hrow r hr c hc]
          · obtain ⟨g1, g2, g3, g4⟩ := ih2 i hi1 (by omega)
            have hsep := segOffset_sep lens (i := i) (j := m + 1) (by omega)
            have hi0 : lens 0 ≤ segOffset lens i := by
              have := segOffset_mono lens (i := 1) (j := i) (by omega)
              simpa [segOffset] using this
            refine ⟨g1, ?_, ?_, ?_⟩
            · intro r hr c hc hz
              rw [b1 _ c (by omega) (by omega), g2 r hr c hc hz]
            · intro r hr c hc hz
              rw [b1 _ c (by omega) (by omega), g3 r hr c hc hz]
            · intro r hr c hc ha
              rw [b1 c _ (by omega) (by omega), g4 r hr c hc ha]

/-- one product -/
theorem bldTarget_spec (lens : ℕ → ℕ) (F : ℕ → ℕ → BlockKind) (i j : ℕ) (M W : ℕ → ℕ → K)
    (hl : HasKind (F j 0) (lens j) (lens 0) fun r c => M (segOffset lens j + r) c)
    (hW : HasKind (F i 0) (lens i) (lens 0) fun r c => W (segOffset lens i + r) c)
    (hwork : ∀ r < lens i, ∀ c < lens 0, Allows (F i 0) r c → M c (segOffset lens i + r) = W (segOffset lens i + r) c)
    (hfit : FitKinds (F j 0) (F i 0) (lens j) (lens 0) (lens i)) (hbad : F j 0 = diag → F i 0 = triU → lens 0 ≤ 1) :
    (∀ r < lens j, ∀ c < lens i, bldTarget lens F i j M (segOffset lens j + r) (segOffset lens i + c) =
      M (segOffset lens j + r) (segOffset lens i + c) -
        ∑ p ∈ Finset.range (lens 0), M (segOffset lens j + r) p * W (segOffset lens i + c) p) ∧
    ∀ x y, ¬ (segOffset lens j ≤ x ∧ x < segOffset lens j + lens j ∧ segOffset lens i ≤ y ∧ y < segOffset lens i + lens i) →
      bldTarget lens F i j M x y = M x y := by
  simp only [bldTarget, segOffset_forRange]
  refine ⟨?_, fun x y h => if_neg h⟩
  intro r hr c hc
  rw [if_pos (by omega), Nat.add_sub_cancel_left, Nat.add_sub_cancel_left]
  rw [C59_reads_only_kind (F j 0) (F i 0) (lens j) (lens 0) (lens i) (-1) (fun r c => M (segOffset lens j + r) c)
    (fun r c => if Allows (F i 0) r c then M c (segOffset lens i + r) else 0) (fun r c => M c (segOffset lens i + r)) _
    (fun r p h => (if_pos h).symm)]
  rw [(C59_adds_product_partial (F j 0) (F i 0) (lens j) (lens 0) (lens i) (-1) _ _ _ hl
    (fun r _ c _ h => if_neg h) hfit hbad).1 r hr c hc]
  rw [neg_one_mul, ← sub_eq_add_neg]
  congr 1
  refine Finset.sum_congr rfl fun p hp => ?_
  rw [Finset.mem_range] at hp
  congr 1
  by_cases ha : Allows (F i 0) c p
  · simp only
    rw [if_pos ha, hwork c hc p hp ha]
  · simp only
    rw [if_neg ha]
    exact (hW c hc p hp ha).symm

/-- the conditions on the kinds of the first column of the factor that make the products right -/
def ColumnFits (n : ℕ) (lens : ℕ → ℕ) (F : ℕ → ℕ → BlockKind) : Prop :=
  (∀ i, 1 ≤ i → i < n + 1 → F i 0 = diag → lens i = lens 0) ∧
  (∀ i j, 1 ≤ i → i < j → j < n + 1 → F j 0 = triU → F i 0 = diag → lens 0 ≤ lens j) ∧
  (∀ i j, 1 ≤ i → i < j → j < n + 1 → F j 0 = diag → F i 0 = triU → lens 0 ≤ 1)

/-- the update of the trailing blocks -/
theorem bldSchur_spec (n : ℕ) (lens : ℕ → ℕ) (F : ℕ → ℕ → BlockKind) (M W : ℕ → ℕ → K)
    (hl : ∀ j, 1 ≤ j → j < n + 1 → HasKind (F j 0) (lens j) (lens 0) fun r c => M (segOffset lens j + r) c)
    (hW : ∀ j, 1 ≤ j → j < n + 1 → HasKind (F j 0) (lens j) (lens 0) fun r c => W (segOffset lens j + r) c)
    (hwork : ∀ i, 1 ≤ i → i < n + 1 → ∀ r < lens i, ∀ c < lens 0, Allows (F i 0) r c →
      M c (segOffset lens i + r) = W (segOffset lens i + r) c)
    (hnt : ∀ i, 1 ≤ i → i < n + 1 → F i 0 ≠ triL)
    (hfit : ColumnFits n lens F) :
    (∀ x y, x < lens 0 ∨ y < lens 0 → bldSchur (n + 1) lens F M x y = M x y) ∧
    ∀ x y, lens 0 ≤ y → y ≤ x → x < segOffset lens (n + 1) →
      bldSchur (n + 1) lens F M x y = M x y - ∑ p ∈ Finset.range (lens 0), M x p * W y p := by
  have hge : ∀ i, 1 ≤ i → lens 0 ≤ segOffset lens i := fun i hi => by
    have := segOffset_mono lens (i := 1) (j := i) hi
    simpa [segOffset] using this
  obtain ⟨f1, f2, f3⟩ := hfit
  -- one product applied to a state that agrees with `M` where it matters
  have step : ∀ (T : ℕ → ℕ → K) (i j : ℕ), 1 ≤ i → i ≤ j → j < n + 1 →
      (∀ x y, x < lens 0 ∨ y < lens 0 → T x y = M x y) →
      (∀ x y, x < lens 0 ∨ y < lens 0 → bldTarget lens F i j T x y = M x y) ∧
      (∀ r < lens j, ∀ c < lens i, bldTarget lens F i j T (segOffset lens j + r) (segOffset lens i + c) =
        T (segOffset lens j + r) (segOffset lens i + c) -
          ∑ p ∈ Finset.range (lens 0), M (segOffset lens j + r) p * W (segOffset lens i + c) p) ∧
      ∀ i' j', (i' ≠ i ∨ j' ≠ j) → ∀ r < lens j', ∀ c < lens i', bldTarget lens F i j T (segOffset lens j' + r) (segOffset lens i' + c) =
        T (segOffset lens j' + r) (segOffset lens i' + c) := by
    intro T i j h1 hij hj hT
    have hfit' : FitKinds (F j 0) (F i 0) (lens j) (lens 0) (lens i) := by
      refine ⟨fun h => ?_, fun h => ?_, fun h h' => ?_, fun h h' => ?_⟩
      · exact f1 j (by omega) hj h
      · exact f1 i h1 (by omega) h
      · have hne : i ≠ j := by rintro rfl; rw [h] at h'; cases h'
        exact f2 i j h1 (by omega) hj h h'
      · exact absurd h' (hnt i h1 (by omega))
    have hbad' : F j 0 = diag → F i 0 = triU → lens 0 ≤ 1 := by
      intro h h'
      have hne : i ≠ j := by rintro rfl; rw [h] at h'; cases h'
      exact f3 i j h1 (by omega) hj h h'
    have hgi := hge i h1
    have hgj := hge j (by omega)
    obtain ⟨t1, t2⟩ := bldTarget_spec lens F i j T W
      (fun r hr c hc h => by simp only; rw [hT _ _ (Or.inr hc)]; exact hl j (by omega) hj r hr c hc h)
      (hW i h1 (by omega))
      (fun r hr c hc h => by rw [hT _ _ (Or.inl hc)]; exact hwork i h1 (by omega) r hr c hc h) hfit' hbad'
    refine ⟨?_, ?_, ?_⟩
    · intro x y hxy
      rw [t2 x y (by omega), hT x y hxy]
    · intro r hr c hc
      rw [t1 r hr c hc]
      congr 1
      refine Finset.sum_congr rfl fun p hp => ?_
      rw [Finset.mem_range] at hp
      rw [hT _ _ (Or.inr hp)]
    · intro i' j' hne r hr c hc
      apply t2
      rintro ⟨a1, a2, a3, a4⟩
      rcases hne with hne | hne
      · rcases Nat.lt_or_gt_of_ne hne with h | h
        · have := segOffset_sep lens h; omega
        · have := segOffset_sep lens h; omega
      · rcases Nat.lt_or_gt_of_ne hne with h | h
        · have := segOffset_sep lens h; omega
        · have := segOffset_sep lens h; omega
  -- the invariant: blocks `(j', i')` for which `done i' j'` holds are updated
  have key := forRange_ind (fun m (T : ℕ → ℕ → K) => (∀ x y, x < lens 0 ∨ y < lens 0 → T x y = M x y) ∧
      ∀ i' j', 1 ≤ i' → i' ≤ j' → j' < n + 1 → ∀ r < lens j', ∀ c < lens i', T (segOffset lens j' + r) (segOffset lens i' + c) =
        if i' < 1 + m then M (segOffset lens j' + r) (segOffset lens i' + c) -
          ∑ p ∈ Finset.range (lens 0), M (segOffset lens j' + r) p * W (segOffset lens i' + c) p
        else M (segOffset lens j' + r) (segOffset lens i' + c)) 1 (n + 1 - 1)
    (fun i M => forRange (i + 1) (n + 1 - (i + 1)) (bldTarget lens F i) (bldTarget lens F i i M)) M
    ⟨fun _ _ _ => rfl, fun i' j' h1 _ _ r _ c _ => by rw [if_neg (by omega)]⟩
    (by
      rintro m T hm ⟨hT1, hT2⟩
      have h0 := step T (1 + m) (1 + m) (by omega) le_rfl (by omega) hT1
      have inner := forRange_ind (fun q (U : ℕ → ℕ → K) => (∀ x y, x < lens 0 ∨ y < lens 0 → U x y = M x y) ∧
        ∀ i' j', 1 ≤ i' → i' ≤ j' → j' < n + 1 → ∀ r < lens j', ∀ c < lens i', U (segOffset lens j' + r) (segOffset lens i' + c) =
          if i' < 1 + m ∨ (i' = 1 + m ∧ j' < 1 + m + 1 + q) then M (segOffset lens j' + r) (segOffset lens i' + c) -
            ∑ p ∈ Finset.range (lens 0), M (segOffset lens j' + r) p * W (segOffset lens i' + c) p
          else M (segOffset lens j' + r) (segOffset lens i' + c)) (1 + m + 1) (n + 1 - (1 + m + 1)) (bldTarget lens F (1 + m))
        (bldTarget lens F (1 + m) (1 + m) T)
        (by
          refine ⟨h0.1, ?_⟩
          intro i' j' h1 h2 h3 r hr c hc
          by_cases hd : i' = 1 + m ∧ j' = 1 + m
          · obtain ⟨rfl, rfl⟩ := hd
            rw [h0.2.1 r hr c hc, hT2 _ _ h1 h2 h3 r hr c hc, if_neg (by omega), if_pos (by omega)]
          · rw [h0.2.2 i' j' (by omega) r hr c hc, hT2 _ _ h1 h2 h3 r hr c hc]
            by_cases hlt : i' < 1 + m
            · rw [if_pos hlt, if_pos (Or.inl hlt)]
            · rw [if_neg hlt, if_neg (by omega)])
        (by
          rintro q U hq ⟨hU1, hU2⟩
          have hs := step U (1 + m) (1 + m + 1 + q) (by omega) (by omega) (by omega) hU1
          refine ⟨hs.1, ?_⟩
          intro i' j' h1 h2 h3 r hr c hc
          by_cases hd : i' = 1 + m ∧ j' = 1 + m + 1 + q
          · obtain ⟨rfl, rfl⟩ := hd
            rw [hs.2.1 r hr c hc, hU2 _ _ h1 h2 h3 r hr c hc, if_neg (by omega), if_pos (by omega)]
          · rw [hs.2.2 i' j' (by omega) r hr c hc, hU2 _ _ h1 h2 h3 r hr c hc]
            by_cases hlt : i' < 1 + m ∨ (i' = 1 + m ∧ j' < 1 + m + 1 + q)
            · rw [if_pos hlt, if_pos (by omega)]
            · rw [if_neg hlt, if_neg (by omega)])
      refine ⟨inner.1, ?_⟩
      intro i' j' h1 h2 h3 r hr c hc
      rw [inner.2 i' j' h1 h2 h3 r hr c hc]
      by_cases hlt : i' < 1 + (m + 1)
      · rw [if_pos (by omega), if_pos hlt]
      · rw [if_neg (by omega), if_neg hlt])
  refine ⟨key.1, ?_⟩
  intro x y hy hyx hx
  obtain ⟨j, hj, hj1, hj2⟩ := segOffset_cover lens (n + 1) x hx
  obtain ⟨i, hi, hi1, hi2⟩ := segOffset_cover lens (n + 1) y (by omega)
  have hij : i ≤ j := by
    by_contra hc
    have := segOffset_sep lens (i := j) (j := i) (by omega)
    omega
  have hi0 : 1 ≤ i := by
    by_contra hc
    obtain rfl : i = 0 := by omega
    rw [segOffset_zero] at hi2
    omega
  have := key.2 i j hi0 hij hj (x - segOffset lens j) (by omega) (y - segOffset lens i) (by omega)
  rw [Nat.add_sub_cancel' hj1, Nat.add_sub_cancel' hi1, if_pos (by omega)] at this
  exact this

/-! ### one level of the recursion -/

theorem colSpec_zero (n : ℕ) (Ks : ℕ → ℕ → BlockKind) (hp : Ks 0 0 = dense ∨ Ks 0 0 = diag) :
    (Ks 0 0 = dense ∧ colSpec (n + 1) Ks 0 0 = triL) ∨ (Ks 0 0 = diag ∧ colSpec (n + 1) Ks 0 0 = diag) := by
  rcases hp with h | h
  · exact Or.inl ⟨h, by simp [colSpec, h]⟩
  · exact Or.inr ⟨h, by simp [colSpec, h]⟩

/-- the pivot block -/
theorem bldPivot_spec (n : ℕ) (lens : ℕ → ℕ) (Ks : ℕ → ℕ → BlockKind) (S M : ℕ → ℕ → K) (sign : SignMat)
    (hp : Ks 0 0 = dense ∨ Ks 0 0 = diag) (hS : HasPattern (n + 1) lens Ks S)
    (hM : ∀ i < lens 0, ∀ c ≤ i, M i c = S i c)
    (hpiv : ∀ k, k + 1 < lens 0 → (bldPivot (colSpec (n + 1) Ks 0 0) (lens 0) M sign).1 k k ≠ 0) :
    LowerLdl (lens 0) S (bldPivot (colSpec (n + 1) Ks 0 0) (lens 0) M sign).1 := by
  rcases colSpec_zero n Ks hp with ⟨h1, h2⟩ | ⟨h1, h2⟩
  · rw [h2] at hpiv ⊢
    simp only [bldPivot, if_true] at hpiv ⊢
    have hin : ∀ i < lens 0, ∀ c < lens 0, writeDiagBlock 0 (lens 0) M (denseLdlt (lens 0) M sign).1 i c =
        (denseLdlt (lens 0) M sign).1 i c := by
      intro i hi c hc
      rw [writeDiagBlock, if_pos (by omega)]
      rfl
    refine (denseLdlt_spec (lens 0) M sign fun k hk => ?_).1.congr (fun i hi c hc => (hM i hi c hc).symm)
      fun i hi c hc => hin i hi c (by omega)
    have := hpiv k hk
    rwa [hin k (by omega) k (by omega)] at this
  · rw [h2]
    simp only [bldPivot, reduceCtorEq, if_false]
    have hz : ∀ i < lens 0, ∀ c < i, M i c = 0 := by
      intro i hi c hc
      rw [hM i hi c (by omega)]
      have := hS 0 (by omega) 0 (by omega) i hi c (by omega)
      simp only [h1, segOffset_zero, Nat.zero_add] at this
      exact this (by simp only [Allows]; omega)
    constructor
    · intro c hc
      rw [sum_all_zero _ _ fun k hk => by rw [hz c hc k hk, zero_mul, zero_mul], zero_add, hM c hc c le_rfl]
    · intro c hc _ i hi hci
      rw [sum_all_zero _ _ fun k hk => by rw [hz c hc k hk, mul_zero], zero_add, ← hM i hi c (by omega), hz i hi c hci, zero_mul]

theorem bldPivot_out (pivot : BlockKind) (b : ℕ) (M : ℕ → ℕ → K) (sign : SignMat) (i c : ℕ) (h : b ≤ i ∨ b ≤ c) :
    (bldPivot pivot b M sign).1 i c = M i c := by
  unfold bldPivot
  split
  · simp only [writeDiagBlock]
    rw [if_neg (by omega)]
  · rfl

theorem bld_level (n : ℕ) (lens : ℕ → ℕ) (Ks F : ℕ → ℕ → BlockKind) (S M M1 : ℕ → ℕ → K) (sign : SignMat)
    (hp : Ks 0 0 = dense ∨ Ks 0 0 = diag) (hF : ∀ i < n + 1, F i 0 = colSpec (n + 1) Ks i 0)
    (hS : HasPattern (n + 1) lens Ks S)
    (hM : ∀ i < segOffset lens (n + 1), ∀ c ≤ i, M i c = S i c) (hfit : ColumnFits n lens F)
    (hpiv : ∀ k < lens 0, (bldPivot (F 0 0) (lens 0) M sign).1 k k ≠ 0)
    (hcol : bldColumn lens F n (bldPivot (F 0 0) (lens 0) M sign).1 = (true, M1)) :
    (∀ i < lens 0, ∀ c < lens 0, bldSchur (n + 1) lens F M1 i c = (bldPivot (F 0 0) (lens 0) M sign).1 i c) ∧
    (∀ x, lens 0 ≤ x → x < segOffset lens (n + 1) → ∀ c < lens 0, S x c =
      ∑ k ∈ Finset.range c, bldSchur (n + 1) lens F M1 x k * bldSchur (n + 1) lens F M1 k k * bldSchur (n + 1) lens F M1 c k +
        bldSchur (n + 1) lens F M1 x c * bldSchur (n + 1) lens F M1 c c) ∧
    (∀ x y, lens 0 ≤ y → y ≤ x → x < segOffset lens (n + 1) → bldSchur (n + 1) lens F M1 x y = S x y -
      ∑ k ∈ Finset.range (lens 0), bldSchur (n + 1) lens F M1 x k * bldSchur (n + 1) lens F M1 k k * bldSchur (n + 1) lens F M1 y k) ∧
    (∀ i < n, HasKind (colSpec (n + 1) Ks (i + 1) 0) (lens (i + 1)) (lens 0) fun r c =>
      bldSchur (n + 1) lens F M1 (lens 0 + segOffset (fun k => lens (k + 1)) i + r) c) := by
  have hb : lens 0 ≤ segOffset lens (n + 1) := by
    have := segOffset_mono lens (i := 1) (j := n + 1) (by omega)
    simpa [segOffset] using this
  have h00 := bldPivot_spec n lens Ks S M sign hp hS (fun i hi c hc => hM i (by omega) c hc)
    (fun k hk => by rw [← hF 0 (by omega)]; exact hpiv k (by omega))
  rw [← hF 0 (by omega)] at h00
  have hp0 := colSpec_zero n Ks hp
  rw [← hF 0 (by omega)] at hp0
  have hout : ∀ i c, lens 0 ≤ i ∨ lens 0 ≤ c → (bldPivot (F 0 0) (lens 0) M sign).1 i c = M i c :=
    bldPivot_out (F 0 0) (lens 0) M sign
  have hdiag0 : F 0 0 = diag → ∀ c < lens 0, ∀ k < c, (bldPivot (F 0 0) (lens 0) M sign).1 c k = 0 := by
    intro h c hc k hk
    have h1 : Ks 0 0 = diag := by
      rcases hp0 with ⟨_, h2⟩ | ⟨h1, _⟩
      · rw [h] at h2; cases h2
      · exact h1
    rw [h]
    simp only [bldPivot, reduceCtorEq, if_false]
    rw [hM c (by omega) k (by omega)]
    have := hS 0 (by omega) 0 (by omega) c hc k (by omega)
    simp only [h1, segOffset_zero, Nat.zero_add] at this
    exact this (by simp only [Allows]; omega)
  generalize (bldPivot (F 0 0) (lens 0) M sign).1 = M0 at *
  -- rows below the pivot
  obtain ⟨W, hWdef⟩ : ∃ W, W = bldRow (F 0 0) (lens 0) M0 := ⟨_, rfl⟩
  have hWeq : ∀ x, lens 0 ≤ x → x < segOffset lens (n + 1) → ∀ c < lens 0,
      S x c = ∑ k ∈ Finset.range c, W x k * M0 c k + W x c := by
    intro x hx hxN c hc
    rcases hp0 with ⟨h1, h2⟩ | ⟨h1, h2⟩
    · have := (fwdUnit_spec (lens 0) M0 fun c => M0 x c).1 c hc
      simp only [hWdef, bldRow, h2, if_true]
      rw [hout x c (Or.inl hx), hM x hxN c (by omega)] at this
      rw [← this]
      congr 1
      exact Finset.sum_congr rfl fun k _ => mul_comm _ _
    · simp only [hWdef, bldRow, h2, reduceCtorEq, if_false]
      rw [sum_all_zero _ _ fun k hk => by rw [hdiag0 h2 c hc k hk, mul_zero], zero_add, hout x c (Or.inl hx), hM x hxN c (by omega)]
  have hlt : ∀ i, 1 ≤ i → i < n + 1 → lens 0 ≤ segOffset lens i ∧ segOffset lens i + lens i ≤ segOffset lens (n + 1) := by
    intro i h1 h2
    constructor
    · have := segOffset_mono lens (i := 1) (j := i) (by omega)
      simpa [segOffset] using this
    · exact segOffset_sep lens h2
  have hWkind : ∀ i, 1 ≤ i → i < n + 1 → HasKind (F i 0) (lens i) (lens 0) fun r c => W (segOffset lens i + r) c := by
    intro i hi1 hi2 r hr
    obtain ⟨hl1, hl2⟩ := hlt i hi1 hi2
    have hSk : ∀ c < lens 0, ¬ Allows (Ks i 0) r c → S (segOffset lens i + r) c = 0 := by
      intro c hc hna
      have := hS i hi2 0 (by omega) r hr c hc hna
      simpa only [segOffset_zero, Nat.zero_add] using this
    have hFi := hF i hi2
    rcases hp0 with ⟨h1, h2⟩ | ⟨h1, h2⟩
    · have hFi' : F i 0 = lltBelowDense (Ks i 0) := by rw [hFi]; simp [colSpec, h1, hi1, hi2, Nat.ne_of_gt hi1]
      intro c
      induction c using Nat.strong_induction_on with
      | _ c ih =>
        intro hc hna
        have hrc : c < r ∧ ¬ Allows (Ks i 0) r c := by
          rw [hFi'] at hna
          cases hk : Ks i 0 <;> rw [hk] at hna <;> simp only [lltBelowDense, Allows] at hna ⊢ <;> first | omega | exact (hna trivial).elim | exact ⟨by omega, not_false⟩
        have h3 := hWeq (segOffset lens i + r) (by omega) (by omega) c hc
        rw [hSk c hc hrc.2, sum_all_zero _ _ fun k hk => ?_, zero_add] at h3
        · exact h3.symm
        · have h4 := ih k hk (by omega) ?_
          · simp only at h4
            rw [h4, zero_mul]
          rw [hFi'] at hna ⊢
          cases hk' : Ks i 0 <;> rw [hk'] at hna <;> simp only [lltBelowDense, Allows] at hna ⊢ <;> first | omega | trivial
    · have hFi' : F i 0 = Ks i 0 := by rw [hFi]; simp [colSpec, h1, Nat.ne_of_gt hi1]
      intro c hc hna
      rw [hFi'] at hna
      have h3 := hSk c hc hna
      simp only [hWdef, bldRow, h2, reduceCtorEq, if_false]
      rw [hout _ c (Or.inl (by omega)), hM _ (by omega) c (by omega), h3]
  -- the column
  have hnd : ∀ i, 1 ≤ i → i < n + 1 → ¬ (F 0 0 = triL ∧ F i 0 = diag) := by
    rintro i hi1 hi2 ⟨h, h'⟩
    rcases hp0 with ⟨h1, h2⟩ | ⟨h1, h2⟩
    · rw [hF i hi2] at h'
      have : colSpec (n + 1) Ks i 0 = lltBelowDense (Ks i 0) := by simp [colSpec, h1, hi1, hi2, Nat.ne_of_gt hi1]
      rw [this] at h'
      cases hk : Ks i 0 <;> rw [hk] at h' <;> simp [lltBelowDense] at h'
    · rw [h] at h2; cases h2
  obtain ⟨c1, c2⟩ := bldColumn_spec lens F n M0 M1 hnd hcol
  have hM1 : ∀ i, 1 ≤ i → i < n + 1 → ∀ r < lens i, ∀ c < lens 0,
      M1 (segOffset lens i + r) c = W (segOffset lens i + r) c * (1 / M0 c c) := by
    intro i hi1 hi2 r hr c hc
    obtain ⟨g1, g2, g3, g4⟩ := c2 i hi1 hi2
    obtain ⟨hl1, hl2⟩ := hlt i hi1 hi2
    by_cases hz : F i 0 = zero
    · have hw : W (segOffset lens i + r) c = 0 := hWkind i hi1 hi2 r hr c hc (by rw [hz]; simp [Allows])
      rw [g3 r hr c hc hz, hw, zero_mul]
      have hd : F 0 0 = diag := by
        rcases hp0 with ⟨h1, h2⟩ | ⟨h1, h2⟩
        · rw [hF i hi2] at hz
          have : colSpec (n + 1) Ks i 0 = lltBelowDense (Ks i 0) := by simp [colSpec, h1, hi1, hi2, Nat.ne_of_gt hi1]
          rw [this] at hz
          cases hk : Ks i 0 <;> rw [hk] at hz <;> simp [lltBelowDense] at hz
        · exact h2
      simp only [hWdef, bldRow, hd, reduceCtorEq, if_false] at hw
      exact hw
    · rw [g2 r hr c hc hz, ← hWdef]
      by_cases ha : Allows (F i 0) r c
      · rw [if_pos ha]
      · have hw : W (segOffset lens i + r) c = 0 := hWkind i hi1 hi2 r hr c hc ha
        rw [if_neg ha, hw, zero_mul]
  have hM1' : ∀ x, lens 0 ≤ x → x < segOffset lens (n + 1) → ∀ c < lens 0, W x c = M1 x c * M0 c c := by
    intro x hx hxN c hc
    obtain ⟨i, hi, hi1, hi2⟩ := segOffset_cover lens (n + 1) x hxN
    have hi0 : 1 ≤ i := by
      by_contra hcon
      obtain rfl : i = 0 := by omega
      rw [segOffset_zero] at hi2
      omega
    have := hM1 i hi0 hi (x - segOffset lens i) (by omega) c hc
    rw [Nat.add_sub_cancel' hi1] at this
    rw [this, mul_assoc, one_div, inv_mul_cancel₀ (hpiv c hc), mul_one]
  have hM1kind : ∀ j, 1 ≤ j → j < n + 1 → HasKind (F j 0) (lens j) (lens 0) fun r c => M1 (segOffset lens j + r) c := by
    intro j hj1 hj2 r hr c hc hna
    have := hWkind j hj1 hj2 r hr c hc hna
    simp only at this ⊢
    rw [hM1 j hj1 hj2 r hr c hc, this, zero_mul]
  obtain ⟨u1, u2⟩ := bldSchur_spec n lens F M1 W hM1kind hWkind
    (fun i hi1 hi2 r hr c hc ha => by rw [(c2 i hi1 hi2).2.2.2 r hr c hc ha, hWdef]) (fun i hi1 hi2 => (c2 i hi1 hi2).1) hfit
  refine ⟨?_, ?_, ?_, ?_⟩
  · intro i hi c hc
    rw [u1 i c (Or.inl hi), c1 i c (Or.inl ⟨hi, hc⟩)]
  · intro x hx hxN c hc
    rw [hWeq x hx hxN c hc, u1 c c (Or.inl hc), u1 x c (Or.inr hc), c1 c c (Or.inl ⟨hc, hc⟩), hM1' x hx hxN c hc]
    congr 1
    refine Finset.sum_congr rfl fun k hk => ?_
    rw [Finset.mem_range] at hk
    rw [hM1' x hx hxN k (by omega), u1 x k (Or.inr (by omega)), u1 k k (Or.inl (by omega)), u1 c k (Or.inl hc),
      c1 k k (Or.inl (by omega)), c1 c k (Or.inl (by omega))]
  · intro x y hy hyx hx
    rw [u2 x y hy hyx hx, c1 x y (Or.inr (Or.inl (by omega))), hout x y (Or.inr hy), hM x hx y hyx]
    congr 1
    refine Finset.sum_congr rfl fun k hk => ?_
    rw [Finset.mem_range] at hk
    rw [hM1' y hy (by omega) k hk, u1 x k (Or.inr hk), u1 k k (Or.inl hk), u1 y k (Or.inr hk), c1 k k (Or.inl (by omega))]
    ring
  · intro i hi r hr c hc hna
    have := hM1kind (i + 1) (by omega) (by omega) r hr c hc (by rw [hF (i + 1) (by omega)]; exact hna)
    simp only at this ⊢
    rw [u1 _ _ (Or.inr hc), ← segOffset_succ', this]

/-! ### the recursion -/

/-- the conditions on all columns of the factor -/
def FactorFits (n : ℕ) (lens : ℕ → ℕ) (F : ℕ → ℕ → BlockKind) : Prop :=
  (∀ c i, c < i → i < n → F i c = diag → lens i = lens c) ∧
  (∀ c i j, c < i → i < j → j < n → F j c = triU → F i c = diag → lens c ≤ lens j) ∧
  (∀ c i j, c < i → i < j → j < n → F j c = diag → F i c = triU → lens c ≤ 1)

theorem FactorFits.column {n : ℕ} {lens : ℕ → ℕ} {F : ℕ → ℕ → BlockKind} (h : FactorFits (n + 1) lens F) : ColumnFits n lens F :=
  ⟨fun i h1 h2 => h.1 0 i (by omega) h2, fun i j h1 h2 h3 => h.2.1 0 i j (by omega) h2 h3, fun i j h1 h2 h3 => h.2.2 0 i j (by omega) h2 h3⟩

theorem FactorFits.tail {n : ℕ} {lens : ℕ → ℕ} {F : ℕ → ℕ → BlockKind} (h : FactorFits (n + 1) lens F) :
    FactorFits n (fun i => lens (i + 1)) fun i j => F (i + 1) (j + 1) :=
  ⟨fun c i h1 h2 => h.1 (c + 1) (i + 1) (by omega) (by omega),
    fun c i j h1 h2 h3 => h.2.1 (c + 1) (i + 1) (j + 1) (by omega) (by omega) (by omega),
    fun c i j h1 h2 h3 => h.2.2 (c + 1) (i + 1) (j + 1) (by omega) (by omega) (by omega)⟩

/-- pattern of the Schur complement -/
theorem schur_pattern (n : ℕ) (lens : ℕ → ℕ) (Ks : ℕ → ℕ → BlockKind) (S L : ℕ → ℕ → K) (d : ℕ → K)
    (hS : HasPattern (n + 1) lens Ks S)
    (hsym : ∀ i < segOffset lens (n + 1), ∀ j < segOffset lens (n + 1), S i j = S j i)
    (hcol : ∀ i < n, HasKind (colSpec (n + 1) Ks (i + 1) 0) (lens (i + 1)) (lens 0) fun r c =>
      L (lens 0 + segOffset (fun k => lens (k + 1)) i + r) c) :
    HasPattern n (fun k => lens (k + 1)) (fun i j => lltUpdateSpec (n + 1) (colSpec (n + 1) Ks) (i + 1) (j + 1))
      (schur (lens 0) S L d) := by
  have hsym' : ∀ i < segOffset (fun k => lens (k + 1)) n, ∀ j < segOffset (fun k => lens (k + 1)) n,
      schur (lens 0) S L d i j = schur (lens 0) S L d j i := by
    intro i hi j hj
    rw [segOffset_succ'] at hsym
    simp only [schur]
    rw [hsym _ (by omega) _ (by omega)]
    congr 1
    exact Finset.sum_congr rfl fun k _ => by ring
  have hup : ∀ i j, i < n → j < n → i ≤ j →
      HasKind (add (Ks (i + 1) (j + 1)) (mul (colSpec (n + 1) Ks (i + 1) 0) (trans (colSpec (n + 1) Ks (j + 1) 0)))) (lens (i + 1)) (lens (j + 1))
        fun r c => schur (lens 0) S L d (segOffset (fun k => lens (k + 1)) i + r) (segOffset (fun k => lens (k + 1)) j + c) := by
    intro i j hi hj hij
    have h1 := hS (i + 1) (by omega) (j + 1) (by omega)
    have h2 := C50_mul _ _ _ _ _ _ _ (fun k => - d k) (hcol i hi) (C50_transpose _ _ _ _ (hcol j hj))
    have h3 := C50_add _ _ _ _ _ _ h1 h2
    intro r hr c hc hna
    have h4 := h3 r hr c hc hna
    rw [segOffset_succ', segOffset_succ'] at h4
    rw [← h4]
    simp only [schur, sub_eq_add_neg, ← Finset.sum_neg_distrib, add_assoc]
    congr 1
    exact Finset.sum_congr rfl fun k _ => by ring
  intro i hi j hj
  simp only [lltUpdateSpec]
  rw [if_pos (by omega)]
  have hc : ∀ a b, colSpec (n + 1) Ks (a + 1) (b + 1) = Ks (a + 1) (b + 1) := by
    intro a b; simp [colSpec]
  by_cases hij : i ≤ j
  · rw [if_pos (by omega), hc]
    exact hup i j hi hj hij
  · rw [if_neg (by omega), hc]
    have h1 := C50_transpose _ _ _ _ (hup j i hj hi (by omega))
    intro r hr c hcc hna
    have h2 := h1 r hr c hcc hna
    simp only at h2
    rw [← h2]
    exact hsym' _ (segOffset_lt (fun k => lens (k + 1)) hi hr) _ (segOffset_lt (fun k => lens (k + 1)) hj hcc)

/-- the facts about the kinds used by one level -/
theorem llt_level {n : ℕ} {Ks F : ℕ → ℕ → BlockKind} (hs : (llt (n + 1) Ks).1 = true)
    (hF : ∀ i < n + 1, ∀ j < n + 1, F i j = (llt (n + 1) Ks).2 i j) :
    (Ks 0 0 = dense ∨ Ks 0 0 = diag) ∧ (∀ i < n + 1, F i 0 = colSpec (n + 1) Ks i 0) ∧
    (llt n fun i j => lltUpdateSpec (n + 1) (colSpec (n + 1) Ks) (i + 1) (j + 1)).1 = true ∧
    ∀ i < n, ∀ j < n, F (i + 1) (j + 1) = (llt n fun i j => lltUpdateSpec (n + 1) (colSpec (n + 1) Ks) (i + 1) (j + 1)).2 i j := by
  rw [llt_succ] at hs hF
  by_cases hp : Ks 0 0 = dense ∨ Ks 0 0 = diag
  swap
  · rw [if_neg hp] at hs; simp at hs
  rw [if_pos hp] at hs hF
  refine ⟨hp, fun i hi => ?_, hs, fun i hi j hj => ?_⟩
  · rw [hF i hi 0 (by omega)]
    simp only
    rw [if_neg (by omega)]
  · rw [hF (i + 1) (by omega) (j + 1) (by omega)]
    simp only
    rw [if_pos (by omega), Nat.add_sub_cancel, Nat.add_sub_cancel]

theorem blockLdlt_succ (n N : ℕ) (lens : ℕ → ℕ) (F : ℕ → ℕ → BlockKind) (M : ℕ → ℕ → K) (sign : SignMat) (hN : ¬ N ≤ 1)
    (hp : F 0 0 = triL ∨ F 0 0 = diag) (M1 : ℕ → ℕ → K)
    (hcol : bldColumn lens F n (bldPivot (F 0 0) (lens 0) M sign).1 = (true, M1)) :
    blockLdlt (n + 1) N lens F M sign =
      ((blockLdlt n (N - lens 0) (fun i => lens (i + 1)) (fun i j => F (i + 1) (j + 1))
          (fun i c => bldSchur (n + 1) lens F M1 (lens 0 + i) (lens 0 + c)) (bldPivot (F 0 0) (lens 0) M sign).2).1,
        writeDiagBlock (lens 0) (N - lens 0) (bldSchur (n + 1) lens F M1)
          (blockLdlt n (N - lens 0) (fun i => lens (i + 1)) (fun i j => F (i + 1) (j + 1))
            (fun i c => bldSchur (n + 1) lens F M1 (lens 0 + i) (lens 0 + c)) (bldPivot (F 0 0) (lens 0) M sign).2).2.1,
        (blockLdlt n (N - lens 0) (fun i => lens (i + 1)) (fun i j => F (i + 1) (j + 1))
          (fun i c => bldSchur (n + 1) lens F M1 (lens 0 + i) (lens 0 + c)) (bldPivot (F 0 0) (lens 0) M sign).2).2.2) := by
  rw [blockLdlt, if_neg hN, if_neg (by tauto)]
  simp only [hcol]

/-- the run succeeds at a level only if the column loop runs to the end -/
theorem blockLdlt_column (n N : ℕ) (lens : ℕ → ℕ) (F : ℕ → ℕ → BlockKind) (M : ℕ → ℕ → K) (sign : SignMat) (hN : ¬ N ≤ 1)
    (hp : F 0 0 = triL ∨ F 0 0 = diag) (h : (blockLdlt (n + 1) N lens F M sign).1 = true) :
    ∃ M1, bldColumn lens F n (bldPivot (F 0 0) (lens 0) M sign).1 = (true, M1) := by
  rw [blockLdlt, if_neg hN, if_neg (by tauto)] at h
  obtain ⟨f, T, hT⟩ : ∃ f T, bldColumn lens F n (bldPivot (F 0 0) (lens 0) M sign).1 = (f, T) := ⟨_, _, rfl⟩
  simp only [hT] at h
  cases f with
  | false => simp at h
  | true => exact ⟨T, hT⟩

/-- the pivot block is not changed after its factorisation -/
theorem bld_pivot_kept (n : ℕ) (lens : ℕ → ℕ) (Ks F : ℕ → ℕ → BlockKind) (M M1 : ℕ → ℕ → K) (sign : SignMat)
    (hp : Ks 0 0 = dense ∨ Ks 0 0 = diag) (hF0 : ∀ i < n + 1, F i 0 = colSpec (n + 1) Ks i 0)
    (hcol : bldColumn lens F n (bldPivot (F 0 0) (lens 0) M sign).1 = (true, M1)) :
    ∀ i < lens 0, ∀ c < lens 0, bldSchur (n + 1) lens F M1 i c = (bldPivot (F 0 0) (lens 0) M sign).1 i c := by
  intro i hi c hc
  have hnd : ∀ i, 1 ≤ i → i < n + 1 → ¬ (F 0 0 = triL ∧ F i 0 = diag) := by
    rintro i hi1 hi2 ⟨h, h'⟩
    rw [hF0 i hi2] at h'
    rw [hF0 0 (by omega)] at h
    rcases colSpec_zero n Ks hp with ⟨h1, h2⟩ | ⟨h1, h2⟩
    · have : colSpec (n + 1) Ks i 0 = lltBelowDense (Ks i 0) := by simp [colSpec, h1, hi1, hi2, Nat.ne_of_gt hi1]
      rw [this] at h'
      cases hk : Ks i 0 <;> rw [hk] at h' <;> simp [lltBelowDense] at h'
    · rw [h] at h2; cases h2
  have h1 := (bldColumn_spec lens F n _ M1 hnd hcol).1 i c (Or.inl ⟨hi, hc⟩)
  rw [← h1]
  unfold bldSchur
  refine forRange_ind (fun _ (T : ℕ → ℕ → K) => T i c = M1 i c) _ _ _ _ rfl ?_
  intro k T _ hT
  have hge : ∀ i, 1 ≤ i → lens 0 ≤ segOffset lens i := fun i hi => by
    have := segOffset_mono lens (i := 1) (j := i) hi
    simpa [segOffset] using this
  have htar : ∀ (U : ℕ → ℕ → K) a b, 1 ≤ a → bldTarget lens F a b U i c = U i c := by
    intro U a b ha
    have := hge a ha
    simp only [bldTarget, segOffset_forRange]
    rw [if_neg (by omega)]
  refine forRange_ind (fun _ (T : ℕ → ℕ → K) => T i c = M1 i c) _ _ _ _ ?_ ?_
  · rw [htar _ _ _ (by omega), hT]
  · intro q U _ hU
    rw [htar _ _ _ (by omega), hU]

theorem blockLdlt_lower (n : ℕ) (lens : ℕ → ℕ) (Ks F : ℕ → ℕ → BlockKind) (S M : ℕ → ℕ → K) (sign : SignMat)
    (hs : (llt n Ks).1 = true) (hF : ∀ i < n, ∀ j < n, F i j = (llt n Ks).2 i j) (hfit : FactorFits n lens F)
    (hS : HasPattern n lens Ks S) (hsym : ∀ i < segOffset lens n, ∀ j < segOffset lens n, S i j = S j i)
    (hM : ∀ i < segOffset lens n, ∀ c ≤ i, M i c = S i c)
    (hok : (blockLdlt n (segOffset lens n) lens F M sign).1 = true)
    (hpiv : ∀ k, k + 1 < segOffset lens n → (blockLdlt n (segOffset lens n) lens F M sign).2.1 k k ≠ 0) :
    LowerLdl (segOffset lens n) S (blockLdlt n (segOffset lens n) lens F M sign).2.1 := by
  induction n generalizing lens Ks F S M sign with
  | zero => exact ⟨fun c hc => absurd hc (by simp [segOffset]), fun c hc => absurd hc (by simp [segOffset])⟩
  | succ n ih =>
    by_cases hN : segOffset lens (n + 1) ≤ 1
    · have : (blockLdlt (n + 1) (segOffset lens (n + 1)) lens F M sign).2.1 = M := by rw [blockLdlt, if_pos hN]
      rw [this]
      constructor
      · intro c hc
        obtain rfl : c = 0 := by omega
        simp [hM 0 hc 0 le_rfl]
      · intro c hc _ i hi hci; omega
    obtain ⟨hp, hF0, hs', hF'⟩ := llt_level hs hF
    have hp0 : F 0 0 = triL ∨ F 0 0 = diag := by
      rw [hF0 0 (by omega)]
      rcases colSpec_zero n Ks hp with ⟨_, h⟩ | ⟨_, h⟩
      · exact Or.inl h
      · exact Or.inr h
    obtain ⟨M1, hcol⟩ := blockLdlt_column n _ lens F M sign hN hp0 hok
    rw [blockLdlt_succ n _ lens F M sign hN hp0 M1 hcol] at hok hpiv ⊢
    simp only at hok hpiv ⊢
    have hNs := segOffset_succ' lens n
    obtain ⟨m, hm⟩ : ∃ m, m = segOffset (fun k => lens (k + 1)) n := ⟨_, rfl⟩
    rw [← hm] at hNs
    have hNm : segOffset lens (n + 1) - lens 0 = m := by omega
    rw [hNm] at hok hpiv ⊢
    obtain ⟨M2, hM2⟩ : ∃ M2, M2 = bldSchur (n + 1) lens F M1 := ⟨_, rfl⟩
    rw [← hM2] at hok hpiv ⊢
    obtain ⟨R, hR⟩ : ∃ R, R = (blockLdlt n m (fun i => lens (i + 1)) (fun i j => F (i + 1) (j + 1))
      (fun i c => M2 (lens 0 + i) (lens 0 + c)) (bldPivot (F 0 0) (lens 0) M sign).2) := ⟨_, rfl⟩
    rw [← hR] at hok hpiv ⊢
    have w_in : ∀ i c, i < lens 0 ∨ c < lens 0 → writeDiagBlock (lens 0) m M2 R.2.1 i c = M2 i c := by
      intro i c h
      rw [writeDiagBlock, if_neg (by omega)]
    have w_11 : ∀ i < m, ∀ c < m, writeDiagBlock (lens 0) m M2 R.2.1 (lens 0 + i) (lens 0 + c) = R.2.1 i c := by
      intro i hi c hc
      rw [writeDiagBlock, if_pos (by omega), Nat.add_sub_cancel_left, Nat.add_sub_cancel_left]
    -- the pivot block is not changed after its factorisation
    have hM2_00 : ∀ i < lens 0, ∀ c < lens 0, M2 i c = (bldPivot (F 0 0) (lens 0) M sign).1 i c := by
      intro i hi c hc
      rw [hM2]
      exact bld_pivot_kept n lens Ks F M M1 sign hp hF0 hcol i hi c hc
    have g0 := bldPivot_spec n lens Ks S M sign hp hS (fun i hi c hc => hM i (by omega) c hc) (fun k hk => by
      rw [← hF0 0 (by omega), ← hM2_00 k (by omega) k (by omega), ← w_in k k (Or.inl (by omega))]
      exact hpiv k (by omega))
    rw [← hF0 0 (by omega)] at g0
    have g0' : LowerLdl (lens 0) S (writeDiagBlock (lens 0) m M2 R.2.1) :=
      g0.congr (fun _ _ _ _ => rfl) fun i hi c hc => by rw [w_in i c (Or.inl hi), hM2_00 i hi c (by omega)]
    by_cases hm0 : m = 0
    · rw [show segOffset lens (n + 1) = lens 0 by omega]
      exact g0'
    have hpiv0 : ∀ k < lens 0, (bldPivot (F 0 0) (lens 0) M sign).1 k k ≠ 0 := by
      intro k hk
      rw [← hM2_00 k hk k hk, ← w_in k k (Or.inl hk)]
      exact hpiv k (by omega)
    obtain ⟨-, l1, l2, l3⟩ := bld_level n lens Ks F S M M1 sign hp hF0 hS hM hfit.column hpiv0 hcol
    rw [← hM2] at l1 l2 l3
    have hsym' : ∀ i < segOffset (fun k => lens (k + 1)) n, ∀ j < segOffset (fun k => lens (k + 1)) n,
        schur (lens 0) S M2 (fun k => M2 k k) i j = schur (lens 0) S M2 (fun k => M2 k k) j i := by
      intro i hi j hj
      simp only [schur]
      rw [hsym _ (by omega) _ (by omega)]
      congr 1
      exact Finset.sum_congr rfl fun k _ => by ring
    have hrec := ih (fun k => lens (k + 1)) _ (fun i j => F (i + 1) (j + 1)) (schur (lens 0) S M2 fun k => M2 k k)
      (fun i c => M2 (lens 0 + i) (lens 0 + c)) (bldPivot (F 0 0) (lens 0) M sign).2 hs' hF' hfit.tail
      (schur_pattern n lens Ks S M2 _ hS hsym l3) hsym'
      (fun i hi c hc => l2 (lens 0 + i) (lens 0 + c) (by omega) (by omega) (by omega))
      (by rw [← hm, ← hR]; exact hok)
      (by
        rw [← hm, ← hR]
        intro k hk
        rw [← w_11 k (by omega) k (by omega)]
        exact hpiv (lens 0 + k) (by omega))
    rw [← hm, ← hR] at hrec
    rw [hNs]
    refine LowerLdl.append g0' ?_ ?_ ?_
    · intro k hk
      exact hpiv k (by omega)
    · intro i hi c hc
      rw [l1 (lens 0 + i) (by omega) (by omega) c hc, w_in _ _ (Or.inr hc), w_in _ _ (Or.inr hc)]
      congr 1
      refine Finset.sum_congr rfl fun k hk => ?_
      rw [Finset.mem_range] at hk
      rw [w_in _ _ (Or.inr (by omega)), w_in _ _ (Or.inr (by omega)), w_in _ _ (Or.inr (by omega))]
    · refine hrec.congr ?_ fun i hi c hc => w_11 i hi c (by omega)
      intro i hi c hc
      simp only [schur]
      congr 1
      refine Finset.sum_congr rfl fun k hk => ?_
      rw [Finset.mem_range] at hk
      rw [w_in _ _ (Or.inr hk), w_in _ _ (Or.inr hk), w_in _ _ (Or.inr hk)]

theorem Spec.IsLDL.leading {N : ℕ} {A L : ℕ → ℕ → K} {d : ℕ → K} (h : IsLDL N A L d) {b : ℕ} (hb : b ≤ N) : IsLDL b A L d := by
  refine ⟨fun i hi => h.unit i (by omega), fun i hi j hj => h.lower i (by omega) j (by omega),
    fun k hk => h.pivots k (by omega), fun i hi j hj => ?_⟩
  rw [h.eq i (by omega) j (by omega)]
  symm
  apply Finset.sum_subset (Finset.range_mono (by omega))
  intro k hk hk'
  rw [Finset.mem_range] at hk hk'
  rw [h.lower i (by omega) k hk (by omega), zero_mul, zero_mul]

theorem Spec.IsLDL.congr_left {N : ℕ} {A A' L : ℕ → ℕ → K} {d : ℕ → K} (h : IsLDL N A L d) (hA : ∀ i < N, ∀ j < N, A' i j = A i j) :
    IsLDL N A' L d :=
  ⟨h.unit, h.lower, h.pivots, fun i hi j hj => by rw [hA i hi j hj, h.eq i hi j hj]⟩

/-- the pivot block of a matrix that has a factorisation -/
theorem bldPivot_unique (n : ℕ) (lens : ℕ → ℕ) (Ks : ℕ → ℕ → BlockKind) (S M L : ℕ → ℕ → K) (d : ℕ → K) (sign : SignMat)
    (hp : Ks 0 0 = dense ∨ Ks 0 0 = diag) (hS : HasPattern (n + 1) lens Ks S)
    (hM : ∀ i < lens 0, ∀ c ≤ i, M i c = S i c) (h : IsLDL (lens 0) S L d) :
    ∀ c < lens 0, (bldPivot (colSpec (n + 1) Ks 0 0) (lens 0) M sign).1 c c = d c ∧
      ∀ i < lens 0, c < i → (bldPivot (colSpec (n + 1) Ks 0 0) (lens 0) M sign).1 i c = L i c := by
  rcases colSpec_zero n Ks hp with ⟨h1, h2⟩ | ⟨h1, h2⟩
  · rw [h2]
    simp only [bldPivot, if_true]
    have hin : ∀ i < lens 0, ∀ c < lens 0, writeDiagBlock 0 (lens 0) M (denseLdlt (lens 0) M sign).1 i c =
        (denseLdlt (lens 0) M sign).1 i c := by
      intro i hi c hc
      rw [writeDiagBlock, if_pos (by omega)]
      rfl
    have hu := denseLdlt_unique (lens 0) M L d sign (h.congr_left fun i hi j hj => by
      simp only [matCoeff]
      split
      · exact hM i hi j (by omega)
      · rw [hM j hj i (by omega)]
        exact h.symm _ _ hj hi)
    intro c hc
    refine ⟨by rw [hin c hc c hc, (hu c hc).1], fun i hi hci => by rw [hin i hi c hc, (hu c hc).2 i hi hci]⟩
  · rw [h2]
    simp only [bldPivot, reduceCtorEq, if_false]
    have hd : HasKind diag (lens 0) (lens 0) S := by
      have := hS 0 (by omega) 0 (by omega)
      simpa only [h1, segOffset_zero, Nat.zero_add] using this
    have hL := ldl_diag_block h le_rfl hd
    intro c hc
    constructor
    · rw [hM c hc c le_rfl, h.entry c c hc hc, sum_all_zero _ _ fun k hk => by rw [hL k (by omega) c hc hk, mul_zero], zero_add,
        h.unit c hc, one_mul]
    · intro i hi hci
      rw [hM i hi c (by omega), hd i hi c hc (by simp only [Allows]; omega), hL c hc i hi hci]

/-- if the matrix has a factorisation, the run finds its pivots -/
theorem blockLdlt_pivots (n : ℕ) (lens : ℕ → ℕ) (Ks F : ℕ → ℕ → BlockKind) (S M L : ℕ → ℕ → K) (d : ℕ → K) (sign : SignMat)
    (hs : (llt n Ks).1 = true) (hF : ∀ i < n, ∀ j < n, F i j = (llt n Ks).2 i j) (hfit : FactorFits n lens F)
    (hS : HasPattern n lens Ks S) (hM : ∀ i < segOffset lens n, ∀ c ≤ i, M i c = S i c)
    (hL : IsLDL (segOffset lens n) S L d)
    (hok : (blockLdlt n (segOffset lens n) lens F M sign).1 = true) :
    ∀ k < segOffset lens n, (blockLdlt n (segOffset lens n) lens F M sign).2.1 k k = d k := by
  induction n generalizing lens Ks F S M L d sign with
  | zero => intro k hk; simp [segOffset] at hk
  | succ n ih =>
    have hsym : ∀ i < segOffset lens (n + 1), ∀ j < segOffset lens (n + 1), S i j = S j i := fun i hi j hj => hL.symm i j hi hj
    by_cases hN : segOffset lens (n + 1) ≤ 1
    · have : (blockLdlt (n + 1) (segOffset lens (n + 1)) lens F M sign).2.1 = M := by rw [blockLdlt, if_pos hN]
      rw [this]
      intro k hk
      obtain rfl : k = 0 := by omega
      rw [hM 0 hk 0 le_rfl, hL.entry 0 0 hk hk]
      simp [hL.unit 0 hk]
    obtain ⟨hp, hF0, hs', hF'⟩ := llt_level hs hF
    have hp0 : F 0 0 = triL ∨ F 0 0 = diag := by
      rw [hF0 0 (by omega)]
      rcases colSpec_zero n Ks hp with ⟨_, h⟩ | ⟨_, h⟩
      · exact Or.inl h
      · exact Or.inr h
    obtain ⟨M1, hcol⟩ := blockLdlt_column n _ lens F M sign hN hp0 hok
    rw [blockLdlt_succ n _ lens F M sign hN hp0 M1 hcol] at hok ⊢
    simp only at hok ⊢
    have hNs := segOffset_succ' lens n
    obtain ⟨m, hm⟩ : ∃ m, m = segOffset (fun k => lens (k + 1)) n := ⟨_, rfl⟩
    rw [← hm] at hNs
    have hNm : segOffset lens (n + 1) - lens 0 = m := by omega
    rw [hNm] at hok ⊢
    obtain ⟨M2, hM2⟩ : ∃ M2, M2 = bldSchur (n + 1) lens F M1 := ⟨_, rfl⟩
    rw [← hM2] at hok ⊢
    obtain ⟨R, hR⟩ : ∃ R, R = (blockLdlt n m (fun i => lens (i + 1)) (fun i j => F (i + 1) (j + 1))
      (fun i c => M2 (lens 0 + i) (lens 0 + c)) (bldPivot (F 0 0) (lens 0) M sign).2) := ⟨_, rfl⟩
    rw [← hR] at hok ⊢
    have hkept := bld_pivot_kept n lens Ks F M M1 sign hp hF0 hcol
    rw [← hM2] at hkept
    have hun := bldPivot_unique n lens Ks S M L d sign hp hS (fun i hi c hc => hM i (by omega) c hc) (hL.leading (by omega))
    rw [← hF0 0 (by omega)] at hun
    intro k hk
    by_cases hkb : k < lens 0
    · rw [writeDiagBlock, if_neg (by omega), hkept k hkb k hkb, (hun k hkb).1]
    rw [writeDiagBlock, if_pos (by omega)]
    have hd0 : ∀ k < lens 0, d k ≠ 0 := fun k hk => hL.pivots k (by omega)
    obtain ⟨-, l1, l2, l3⟩ := bld_level n lens Ks F S M M1 sign hp hF0 hS hM hfit.column
      (fun k hk => by rw [(hun k hk).1]; exact hd0 k hk) hcol
    rw [← hM2] at l1 l2 l3
    have hdiag : ∀ c < lens 0, M2 c c = d c := fun c hc => by rw [hkept c hc c hc, (hun c hc).1]
    have hrow : ∀ x, lens 0 ≤ x → x < segOffset lens (n + 1) → ∀ c < lens 0, M2 x c = L x c := by
      intro x hx hxN c
      induction c using Nat.strong_induction_on with
      | _ c ihc =>
        intro hc
        have e1 := l1 x hx hxN c hc
        rw [hL.entry x c hxN (by omega)] at e1
        have e2 : ∑ k ∈ Finset.range c, M2 x k * M2 k k * M2 c k = ∑ k ∈ Finset.range c, L x k * d k * L c k := by
          refine Finset.sum_congr rfl fun k hk => ?_
          rw [Finset.mem_range] at hk
          rw [ihc k hk (by omega), hdiag k (by omega), hkept c hc k (by omega), (hun k (by omega)).2 c hc hk]
        rw [e2, hdiag c hc] at e1
        exact mul_right_cancel₀ (hd0 c hc) (add_left_cancel e1).symm
    have hsch : ∀ i < m, ∀ j < m, schur (lens 0) S M2 (fun k => M2 k k) i j = schur (lens 0) S L d i j := by
      intro i hi j hj
      simp only [schur]
      congr 1
      refine Finset.sum_congr rfl fun k hk => ?_
      rw [Finset.mem_range] at hk
      rw [hrow (lens 0 + i) (by omega) (by omega) k hk, hrow (lens 0 + j) (by omega) (by omega) k hk, hdiag k hk]
    have hLs := hL
    rw [hNs] at hLs
    have hrec := ih (fun k => lens (k + 1)) _ (fun i j => F (i + 1) (j + 1)) (schur (lens 0) S M2 fun k => M2 k k)
      (fun i c => M2 (lens 0 + i) (lens 0 + c)) (fun i j => L (lens 0 + i) (lens 0 + j)) (fun k => d (lens 0 + k))
      (bldPivot (F 0 0) (lens 0) M sign).2 hs' hF' hfit.tail
      (schur_pattern n lens Ks S M2 _ hS hsym l3)
      (fun i hi c hc => l2 (lens 0 + i) (lens 0 + c) (by omega) (by omega) (by omega))
      (by rw [← hm]; exact hLs.schur.congr_left hsch)
      (by rw [← hm, ← hR]; exact hok)
    rw [← hm, ← hR] at hrec
    have := hrec (k - lens 0) (by omega)
    rw [this]
    congr 1
    omega

/-- the run succeeds if the factor has no lower triangular block below its diagonal -/
theorem blockLdlt_ok (n N : ℕ) (lens : ℕ → ℕ) (Ks F : ℕ → ℕ → BlockKind) (M : ℕ → ℕ → K) (sign : SignMat)
    (hs : (llt n Ks).1 = true) (hF : ∀ i < n, ∀ j < n, F i j = (llt n Ks).2 i j)
    (ht : ∀ c i, c < i → i < n → F i c ≠ triL) : (blockLdlt n N lens F M sign).1 = true := by
  induction n generalizing N lens Ks F M sign with
  | zero => rfl
  | succ n ih =>
    by_cases hN : N ≤ 1
    · rw [blockLdlt, if_pos hN]
    obtain ⟨hp, hF0, hs', hF'⟩ := llt_level hs hF
    have hp0 : F 0 0 = triL ∨ F 0 0 = diag := by
      rw [hF0 0 (by omega)]
      rcases colSpec_zero n Ks hp with ⟨_, h⟩ | ⟨_, h⟩
      · exact Or.inl h
      · exact Or.inr h
    have hcol : ∀ m ≤ n, ∀ M : ℕ → ℕ → K, ∃ M1, bldColumn lens F m M = (true, M1) := by
      intro m
      induction m with
      | zero => intro _ M; exact ⟨M, rfl⟩
      | succ m ihm =>
        intro hm M
        obtain ⟨T, hT⟩ := ihm (by omega) M
        have h1 := ht 0 (m + 1) (by omega) (by omega)
        rw [bldColumn]
        simp only [hT]
        cases hk : F (m + 1) 0 with
        | triL => exact absurd hk h1
        | zero => exact ⟨_, rfl⟩
        | diag => exact ⟨_, rfl⟩
        | triU => exact ⟨_, rfl⟩
        | dense => exact ⟨_, rfl⟩
    obtain ⟨M1, hM1⟩ := hcol n le_rfl (bldPivot (F 0 0) (lens 0) M sign).1
    rw [blockLdlt_succ n _ lens F M sign hN hp0 M1 hM1]
    exact ih _ _ _ _ _ _ hs' hF' fun c i h1 h2 => ht (c + 1) (i + 1) (by omega) (by omega)

end ProxNLP
