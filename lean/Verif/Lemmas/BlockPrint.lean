import Verif.Lemmas.BlockStorage
import Verif.Lemmas.BlockTri

/-! Lemmas on printing the sparsity pattern. -/

namespace ProxNLP

open BlockKind Spec

/-- `b'` is `b` with the fields `Q` filled -/
def Fills (b b' : BoolBuf) (Q : ℕ → ℕ → Prop) : Prop := b'.n = b.n ∧ ∀ R C, b'.at' R C = true ↔ b.at' R C = true ∨ Q R C

theorem mark_fills {b : BoolBuf} {r c : ℕ} (hr : r < b.n) (hc : c < b.n) : ∃ b', b.mark r c = some b' ∧ Fills b b' fun R C => R = r ∧ C = c := by
  refine ⟨_, if_pos ⟨hr, hc⟩, rfl, fun R C => ?_⟩
  show (if R = r ∧ C = c then true else b.at' R C) = true ↔ _
  by_cases h : R = r ∧ C = c
  · simp [h]
  · simp [h]

theorem loop_fills (N lo n : ℕ) (f : ℕ → BoolBuf → Option BoolBuf) (Q : ℕ → ℕ → ℕ → Prop)
    (hstep : ∀ t, lo ≤ t → t < lo + n → ∀ b, b.n = N → ∃ b', f t b = some b' ∧ Fills b b' (Q t)) {b : BoolBuf} (hb : b.n = N) :
    ∃ b', forRangeM lo n f b = some b' ∧ Fills b b' fun R C => ∃ t, lo ≤ t ∧ t < lo + n ∧ Q t R C := by
  obtain ⟨b', e, h⟩ := forRangeM_inv (fun k b' => Fills b b' fun R C => ∃ t, lo ≤ t ∧ t < lo + k ∧ Q t R C) lo f n b
    ⟨rfl, fun R C => ⟨Or.inl, fun h => h.elim id fun ⟨t, h1, h2, _⟩ => by omega⟩⟩ (fun k hk b1 h1 => by
      obtain ⟨b2, e2, h2⟩ := hstep (lo + k) (by omega) (by omega) b1 (h1.1.trans hb)
      refine ⟨b2, e2, h2.1.trans h1.1, fun R C => ?_⟩
      rw [h2.2, h1.2]
      constructor
      · rintro ((h | ⟨t, ha, hb, hq⟩) | h)
        · exact Or.inl h
        · exact Or.inr ⟨t, ha, by omega, hq⟩
        · exact Or.inr ⟨lo + k, by omega, by omega, h⟩
      · rintro (h | ⟨t, ha, hb, hq⟩)
        · exact Or.inl (Or.inl h)
        · by_cases hk' : t = lo + k
          · subst hk'
            exact Or.inr hq
          · exact Or.inl (Or.inr ⟨t, ha, by omega, hq⟩))
  exact ⟨b', e, h⟩

/-- the positions of a block that its kind allows -/
def BlockFields (k : BlockKind) (hr hc li lj : ℕ) : ℕ → ℕ → Prop :=
  fun R C => ∃ r < li, ∃ c < lj, Allows k r c ∧ R = hr + r ∧ C = hc + c

theorem Fills.congr {b b' : BoolBuf} {Q Q' : ℕ → ℕ → Prop} (h : Fills b b' Q) (hq : ∀ R C, Q R C ↔ Q' R C) : Fills b b' Q' :=
  ⟨h.1, fun R C => by rw [h.2, hq]⟩

theorem printBlock_fills {b : BoolBuf} {k : BlockKind} {hr hc li lj : ℕ} (h1 : hr + li ≤ b.n) (h2 : hc + lj ≤ b.n) (h3 : k = triL → li ≤ lj) :
    ∃ b', printBlock k hr hc li lj b = some b' ∧ Fills b b' (BlockFields k hr hc li lj) := by
  cases k with
  | zero => exact ⟨b, rfl, rfl, fun R C => ⟨Or.inl, fun h => h.elim id fun ⟨_, _, _, _, h, _⟩ => h.elim⟩⟩
  | diag =>
    obtain ⟨b', e, h⟩ := loop_fills b.n 0 (min li lj) (fun t b => b.mark (hr + t) (hc + t)) (fun t R C => R = hr + t ∧ C = hc + t)
      (fun t _ ht b1 hb1 => mark_fills (by omega) (by omega)) rfl
    refine ⟨b', by rw [printBlock, if_pos ⟨h1, h2⟩]; exact e, h.congr fun R C => ?_⟩
    constructor
    · rintro ⟨t, _, ht, hR, hC⟩
      exact ⟨t, by omega, t, by omega, rfl, hR, hC⟩
    · rintro ⟨r, hr', c, hc', ha, hR, hC⟩
      have : r = c := ha
      exact ⟨r, by omega, by omega, hR, by omega⟩
  | triL =>
    have h3' := h3 rfl
    obtain ⟨b', e, h⟩ := loop_fills b.n 0 li (fun ii b => forRangeM 0 (ii + 1) (fun jj b => b.mark (hr + ii) (hc + jj)) b)
      (fun ii R C => ∃ jj, 0 ≤ jj ∧ jj < 0 + (ii + 1) ∧ R = hr + ii ∧ C = hc + jj)
      (fun ii _ hii b1 hb1 => loop_fills b.n 0 (ii + 1) _ (fun jj R C => R = hr + ii ∧ C = hc + jj)
        (fun jj _ hjj b2 hb2 => mark_fills (by omega) (by omega)) hb1) rfl
    refine ⟨b', e, h.congr fun R C => ?_⟩
    constructor
    · rintro ⟨ii, _, hii, jj, _, hjj, hR, hC⟩
      exact ⟨ii, by omega, jj, by omega, (show jj ≤ ii by omega), hR, hC⟩
    · rintro ⟨r, hr', c, hc', ha, hR, hC⟩
      have : c ≤ r := ha
      exact ⟨r, by omega, by omega, c, by omega, by omega, hR, hC⟩
  | triU =>
    obtain ⟨b', e, h⟩ := loop_fills b.n 0 li (fun ii b => forRangeM ii (lj - ii) (fun jj b => b.mark (hr + ii) (hc + jj)) b)
      (fun ii R C => ∃ jj, ii ≤ jj ∧ jj < ii + (lj - ii) ∧ R = hr + ii ∧ C = hc + jj)
      (fun ii _ hii b1 hb1 => loop_fills b.n ii (lj - ii) _ (fun jj R C => R = hr + ii ∧ C = hc + jj)
        (fun jj _ hjj b2 hb2 => mark_fills (by omega) (by omega)) hb1) rfl
    refine ⟨b', e, h.congr fun R C => ?_⟩
    constructor
    · rintro ⟨ii, _, hii, jj, hle, hjj, hR, hC⟩
      exact ⟨ii, by omega, jj, by omega, hle, hR, hC⟩
    · rintro ⟨r, hr', c, hc', ha, hR, hC⟩
      have : r ≤ c := ha
      exact ⟨r, by omega, by omega, c, this, by omega, hR, hC⟩
  | dense =>
    obtain ⟨b', e, h⟩ := loop_fills b.n 0 li (fun ii b => forRangeM 0 lj (fun jj b => b.mark (hr + ii) (hc + jj)) b)
      (fun ii R C => ∃ jj, 0 ≤ jj ∧ jj < 0 + lj ∧ R = hr + ii ∧ C = hc + jj)
      (fun ii _ hii b1 hb1 => loop_fills b.n 0 lj _ (fun jj R C => R = hr + ii ∧ C = hc + jj)
        (fun jj _ hjj b2 hb2 => mark_fills (by omega) (by omega)) hb1) rfl
    refine ⟨b', by rw [printBlock, if_pos ⟨h1, h2⟩]; exact e, h.congr fun R C => ?_⟩
    constructor
    · rintro ⟨ii, _, hii, jj, _, hjj, hR, hC⟩
      exact ⟨ii, by omega, jj, by omega, trivial, hR, hC⟩
    · rintro ⟨r, hr', c, hc', ha, hR, hC⟩
      exact ⟨r, by omega, by omega, c, by omega, by omega, hR, hC⟩

theorem segOffset_block {lens : ℕ → ℕ} {i n : ℕ} (hi : i < n) : segOffset lens i + lens i ≤ segOffset lens n := segOffset_sep lens hi

/-- the fields of all blocks -/
theorem printBuffer_fills {s : SymStore} {a : Sym} (h : Holds s a) (htri : ∀ i < a.n, ∀ j < a.n, a.kinds i j = triL → a.lens i ≤ a.lens j) :
    ∃ b, printBuffer s = some b ∧ b.n = segOffset a.lens a.n ∧
      ∀ R C, b.at' R C = true ↔ ∃ i < a.n, ∃ j < a.n, BlockFields (a.kinds i j) (segOffset a.lens i) (segOffset a.lens j) (a.lens i) (a.lens j) R C := by
  have hcnt := h.count
  have e0 : forRangeM 0 s.n (fun i acc => (s.len i).bind fun l => some (acc + l)) 0 = some (segOffset a.lens a.n) := by
    obtain ⟨v, e, hv⟩ := forRangeM_inv (fun t acc => acc = segOffset a.lens t) 0 (fun i acc => (s.len i).bind fun l => some (acc + l)) s.n 0
      rfl (fun t ht acc hacc => by
        refine ⟨acc + a.lens t, ?_, ?_⟩
        · rw [Nat.zero_add, h.len ht]
          rfl
        · rw [hacc, segOffset_succ])
    rw [e, hv, hcnt]
  obtain ⟨⟨b, x⟩, e, ⟨hb, _⟩, hat⟩ := forRangeM_inv (fun t (st : BoolBuf × ℕ) => (st.1.n = segOffset a.lens a.n ∧ st.2 = segOffset a.lens t) ∧
      ∀ R C, st.1.at' R C = true ↔ ∃ i < t, ∃ j < a.n,
        BlockFields (a.kinds i j) (segOffset a.lens i) (segOffset a.lens j) (a.lens i) (a.lens j) R C) 0
    (fun i (st : BoolBuf × ℕ) => (s.len i).bind fun li =>
      (forRangeM 0 s.n (fun j (st' : BoolBuf × ℕ) => (s.get i j).bind fun k => (s.len j).bind fun lj =>
        (printBlock k st.2 st'.2 li lj st'.1).bind fun b => some (b, st'.2 + lj)) (st.1, 0)).bind fun r => some (r.1, st.2 + li))
    s.n (⟨segOffset a.lens a.n, fun _ _ => false⟩, 0)
    ⟨⟨rfl, rfl⟩, fun R C => ⟨fun e => by simp at e, fun ⟨i, hi, _⟩ => absurd hi (Nat.not_lt_zero i)⟩⟩
    (fun i hi st hst => by
      obtain ⟨⟨hn, hoff⟩, hfill⟩ := hst
      obtain ⟨⟨b1, y⟩, e1, ⟨hb1, hy⟩, hat1⟩ := forRangeM_inv (fun t (st' : BoolBuf × ℕ) =>
          (st'.1.n = segOffset a.lens a.n ∧ st'.2 = segOffset a.lens t) ∧ ∀ R C, st'.1.at' R C = true ↔ st.1.at' R C = true ∨
            ∃ j < t, BlockFields (a.kinds i j) (segOffset a.lens i) (segOffset a.lens j) (a.lens i) (a.lens j) R C) 0
        (fun j (st' : BoolBuf × ℕ) => (s.get i j).bind fun k => (s.len j).bind fun lj =>
          (printBlock k st.2 st'.2 (a.lens i) lj st'.1).bind fun b => some (b, st'.2 + lj)) s.n (st.1, 0)
        ⟨⟨hn, rfl⟩, fun R C => ⟨Or.inl, fun h => h.elim id fun ⟨j, hj, _⟩ => absurd hj (Nat.not_lt_zero j)⟩⟩
        (fun j hj st' hst' => by
          obtain ⟨⟨hn', hoff'⟩, hfill'⟩ := hst'
          obtain ⟨b2, e2, hf2⟩ := printBlock_fills (b := st'.1) (k := a.kinds i j) (hr := st.2) (hc := st'.2) (li := a.lens i) (lj := a.lens j)
            (by rw [hn', hoff]; exact segOffset_block (by omega)) (by rw [hn', hoff']; exact segOffset_block (by omega))
            (htri i (by omega) j (by omega))
          refine ⟨(b2, st'.2 + a.lens j), ?_, ⟨hf2.1.trans hn', ?_⟩, ?_⟩
          · show (s.get i (0 + j)).bind _ = _
            rw [Nat.zero_add, h.get hi hj]
            show (s.len j).bind _ = _
            rw [h.len hj]
            show (printBlock (a.kinds i j) st.2 st'.2 (a.lens i) (a.lens j) st'.1).bind _ = _
            rw [e2]
            rfl
          · show st'.2 + a.lens j = _
            rw [hoff', segOffset_succ]
          · intro R C
            show b2.at' R C = true ↔ _
            rw [hf2.2, hfill', hoff, hoff']
            constructor
            · rintro ((h | ⟨j', hj', hq⟩) | h)
              · exact Or.inl h
              · exact Or.inr ⟨j', by omega, hq⟩
              · exact Or.inr ⟨j, by omega, h⟩
            · rintro (h | ⟨j', hj', hq⟩)
              · exact Or.inl (Or.inl h)
              · by_cases hjj : j' = j
                · subst hjj
                  exact Or.inr hq
                · exact Or.inl (Or.inr ⟨j', by omega, hq⟩))
      refine ⟨(b1, st.2 + a.lens i), ?_, ⟨hb1, ?_⟩, ?_⟩
      · show (s.len (0 + i)).bind _ = _
        rw [Nat.zero_add, h.len hi]
        exact (congrArg (fun o => Option.bind o _) e1).trans rfl
      · show st.2 + a.lens i = _
        rw [hoff, segOffset_succ]
      · intro R C
        show b1.at' R C = true ↔ _
        rw [hat1, hfill]
        constructor
        · rintro (⟨i', hi', hq⟩ | ⟨j, hj, hq⟩)
          · exact ⟨i', by omega, hq⟩
          · exact ⟨i, by omega, j, by omega, hq⟩
        · rintro ⟨i', hi', j, hj, hq⟩
          by_cases hii : i' = i
          · subst hii
            exact Or.inr ⟨j, by omega, hq⟩
          · exact Or.inl ⟨i', by omega, j, hj, hq⟩)
  refine ⟨b, ?_, hb, ?_⟩
  · rw [printBuffer, e0]
    show (forRangeM 0 s.n _ _).bind _ = _
    exact (congrArg (fun o => Option.bind o _) e).trans rfl
  · intro R C
    have := hat R C
    rw [hcnt] at this
    exact this

theorem segOffset_unique {lens : ℕ → ℕ} {i i' r r' : ℕ} (hr : r < lens i) (hr' : r' < lens i') (e : segOffset lens i + r = segOffset lens i' + r') :
    i = i' ∧ r = r' := by
  rcases Nat.lt_trichotomy i i' with h | h | h
  · have := segOffset_sep lens h
    omega
  · subst h
    exact ⟨rfl, by omega⟩
  · have := segOffset_sep lens h
    omega

end ProxNLP
