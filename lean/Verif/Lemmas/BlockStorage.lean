import Verif.Spec.BlockStorage
import Mathlib.Algebra.Order.Ring.Nat
import Mathlib.Tactic.Ring

/-! Lemmas on the arrays of block structures: the functions on memory compute what the functions of `Model/BlockKind.lean` compute. -/

namespace ProxNLP

open BlockKind Spec

theorem forRangeM_inv {σ : Type} (P : ℕ → σ → Prop) (lo : ℕ) (f : ℕ → σ → Option σ) :
    ∀ (n : ℕ) (s : σ), P 0 s → (∀ t < n, ∀ s, P t s → ∃ s', f (lo + t) s = some s' ∧ P (t + 1) s') →
      ∃ s', forRangeM lo n f s = some s' ∧ P n s'
  | 0, s, h0, _ => ⟨s, rfl, h0⟩
  | n + 1, s, h0, h => by
    obtain ⟨s1, e1, h1⟩ := forRangeM_inv P lo f n s h0 fun t ht => h t (Nat.lt_succ_of_lt ht)
    obtain ⟨s2, e2, h2⟩ := h n (Nat.lt_succ_self n) s1 h1
    exact ⟨s2, by simp only [forRangeM, e1]; exact e2, h2⟩

theorem addr_inj {os i j i' j' : ℕ} (hi : i < os) (hi' : i' < os) (h : i + j * os = i' + j' * os) : i = i' ∧ j = j' := by
  have e1 : (i + j * os) % os = i := by rw [Nat.add_mul_mod_self_right, Nat.mod_eq_of_lt hi]
  have e2 : (i' + j' * os) % os = i' := by rw [Nat.add_mul_mod_self_right, Nat.mod_eq_of_lt hi']
  have hii : i = i' := by rw [← e1, ← e2, h]
  subst hii
  have : j * os = j' * os := by omega
  exact ⟨rfl, Nat.eq_of_mul_eq_mul_right (by omega) this⟩

/-- The entries of the object `s`, placed as `s0`, are `K`; the arrays outside are those of `s0`. -/
structure StoreSim (s0 s : SymStore) (K : ℕ → ℕ → Option BlockKind) : Prop where
  shape : s = { s0 with data := s.data }
  size : s.data.length = s0.data.length
  ent : ∀ i < s0.n, ∀ j < s0.n, s.data[s0.off + (i + j * s0.os)]? = some (K i j)
  frame : ∀ a, (∀ i < s0.n, ∀ j < s0.n, a ≠ s0.off + (i + j * s0.os)) → s.data[a]? = s0.data[a]?

def putO (K : ℕ → ℕ → Option BlockKind) (i j : ℕ) (k : BlockKind) : ℕ → ℕ → Option BlockKind :=
  fun a b => if a = i ∧ b = j then some k else K a b

/-- kinds that are all initialised -/
def full (K : ℕ → ℕ → BlockKind) : ℕ → ℕ → Option BlockKind := fun i j => some (K i j)

theorem putO_full (K : ℕ → ℕ → BlockKind) (i j : ℕ) (k : BlockKind) : putO (full K) i j k = full (setKind K i j k) := by
  funext a b
  simp only [putO, full, setKind]
  split <;> rfl

namespace StoreSim

variable {s0 s : SymStore} {K : ℕ → ℕ → Option BlockKind}

theorem hoff (h : StoreSim s0 s K) : s.off = s0.off := by rw [h.shape]
theorem hos (h : StoreSim s0 s K) : s.os = s0.os := by rw [h.shape]
theorem hn (h : StoreSim s0 s K) : s.n = s0.n := by rw [h.shape]
theorem hlo (h : StoreSim s0 s K) : s.lo = s0.lo := by rw [h.shape]
theorem hlens (h : StoreSim s0 s K) : s.lensArr = s0.lensArr := by rw [h.shape]
theorem hperf (h : StoreSim s0 s K) : s.performed = s0.performed := by rw [h.shape]

theorem addr_eq (h : StoreSim s0 s K) (i j : ℕ) : s.addr i j = s0.off + (i + j * s0.os) := by
  rw [SymStore.addr, h.hoff, h.hos]

theorem get_eq (h : StoreSim s0 s K) {i j : ℕ} (hi : i < s0.n) (hj : j < s0.n) : s.get i j = K i j := by
  rw [SymStore.get, h.addr_eq, h.ent i hi j hj]
  rfl

theorem set_ok (h : StoreSim s0 s K) (hst : s0.n ≤ s0.os) {i j : ℕ} (hi : i < s0.n) (hj : j < s0.n) (k : BlockKind) :
    ∃ s', s.set i j k = some s' ∧ StoreSim s0 s' (putO K i j k) := by
  have hlt : s.addr i j < s.data.length := by
    rw [h.addr_eq]
    exact (List.getElem?_eq_some_iff.1 (h.ent i hi j hj)).1
  refine ⟨{ s with data := s.data.set (s.addr i j) (some k) }, by rw [SymStore.set, if_pos hlt], ?_, ?_, ?_, ?_⟩
  · show ({ s with data := _ } : SymStore) = _
    have := h.shape
    rw [this]
  · show (s.data.set _ _).length = _
    rw [List.length_set, h.size]
  · intro a ha b hb
    show (s.data.set _ _)[_]? = _
    rw [List.getElem?_set]
    by_cases hab : a = i ∧ b = j
    · obtain ⟨rfl, rfl⟩ := hab
      rw [h.addr_eq] at hlt ⊢
      simp [putO, hlt]
    · have hne : ¬ s.addr i j = s0.off + (a + b * s0.os) := by
        rw [h.addr_eq]
        intro e
        have := addr_inj (os := s0.os) (i := i) (j := j) (i' := a) (j' := b) (by omega) (by omega) (by omega)
        exact hab ⟨this.1.symm, this.2.symm⟩
      rw [if_neg hne, h.ent a ha b hb, putO, if_neg hab]
  · intro a ha
    show (s.data.set _ _)[_]? = _
    rw [List.getElem?_set, if_neg (by rw [h.addr_eq]; exact fun e => ha i hi j hj e.symm), h.frame a ha]

theorem set_full {K : ℕ → ℕ → BlockKind} (h : StoreSim s0 s (full K)) (hst : s0.n ≤ s0.os) {i j : ℕ} (hi : i < s0.n) (hj : j < s0.n)
    (k : BlockKind) : ∃ s', s.set i j k = some s' ∧ StoreSim s0 s' (full (setKind K i j k)) := by
  rw [← putO_full]
  exact h.set_ok hst hi hj k

theorem get_full {K : ℕ → ℕ → BlockKind} (h : StoreSim s0 s (full K)) {i j : ℕ} (hi : i < s0.n) (hj : j < s0.n) :
    s.get i j = some (K i j) := h.get_eq hi hj

theorem trans' {s1 : SymStore} {K1 : ℕ → ℕ → Option BlockKind} (h : StoreSim s0 s K) (h1 : StoreSim s s1 K1) : StoreSim s0 s1 K1 := by
  refine ⟨?_, h1.size.trans h.size, ?_, ?_⟩
  · rw [h1.shape, h.shape]
  · have := h1.ent
    rw [h.hn, h.hoff, h.hos] at this
    exact this
  · intro a ha
    have := h1.frame a
    rw [h.hn, h.hoff, h.hos] at this
    rw [this ha, h.frame a ha]

end StoreSim

/-- one loop against the other -/
theorem forRangeM_sim {s0 : SymStore} (lo n : ℕ) (f : ℕ → SymStore → Option SymStore) (g : ℕ → (ℕ → ℕ → BlockKind) → ℕ → ℕ → BlockKind)
    (hstep : ∀ t, lo ≤ t → t < lo + n → ∀ s K, StoreSim s0 s (full K) → ∃ s', f t s = some s' ∧ StoreSim s0 s' (full (g t K)))
    {s : SymStore} {K : ℕ → ℕ → BlockKind} (h : StoreSim s0 s (full K)) :
    ∃ s', forRangeM lo n f s = some s' ∧ StoreSim s0 s' (full (forRange lo n g K)) := by
  obtain ⟨s', e, h'⟩ := forRangeM_inv (fun t s => StoreSim s0 s (full (forRange lo t g K))) lo f n s h (fun t ht s hs => by
    obtain ⟨s', e, h'⟩ := hstep (lo + t) (by omega) (by omega) s _ hs
    exact ⟨s', e, h'⟩)
  exact ⟨s', e, h'⟩

/-! ### `llt_in_place` -/

theorem lltRow_sim {s0 s : SymStore} {K : ℕ → ℕ → BlockKind} (hst : s0.n ≤ s0.os) (h : StoreSim s0 s (full K)) :
    ∃ s', s.lltRow = some s' ∧ StoreSim s0 s' (full (forRange 1 (s0.n - 1) (fun j K => setKind K 0 j zero) K)) := by
  rw [SymStore.lltRow, h.hn]
  exact forRangeM_sim 1 (s0.n - 1) _ _ (fun t h1 h2 s K hs => hs.set_full hst (i := 0) (j := t) (by omega) (by omega) zero) h

theorem lltDense_sim {s0 s : SymStore} {K : ℕ → ℕ → BlockKind} (hst : s0.n ≤ s0.os) (hn : 0 < s0.n) (h : StoreSim s0 s (full K)) :
    ∃ s', s.lltDense = some s' ∧ StoreSim s0 s' (full (forRange 1 (s0.n - 1) (fun i K => setKind K i 0 (lltBelowDense (K i 0)))
      (setKind K 0 0 triL))) := by
  obtain ⟨s1, e1, h1⟩ := h.set_full hst hn hn triL
  obtain ⟨s2, e2, h2⟩ := forRangeM_sim 1 (s0.n - 1) (fun i s => (s.get i 0).bind fun k => s.set i 0 (lltBelowDense k))
    (fun i K => setKind K i 0 (lltBelowDense (K i 0))) (fun t ha hb s K hs => by
      obtain ⟨s', e, h'⟩ := hs.set_full hst (i := t) (j := 0) (by omega) hn (lltBelowDense (K t 0))
      exact ⟨s', by rw [hs.get_full (by omega) hn]; exact e, h'⟩) h1
  refine ⟨s2, ?_, h2⟩
  rw [SymStore.lltDense, e1]
  show forRangeM 1 (s1.n - 1) _ _ = _
  rw [h1.hn]
  exact e2

theorem lltUpdate_sim {s0 s : SymStore} {K : ℕ → ℕ → BlockKind} (hst : s0.n ≤ s0.os) (h : StoreSim s0 s (full K)) :
    ∃ s', s.lltUpdate = some s' ∧ StoreSim s0 s' (full (lltUpdate s0.n K)) := by
  rw [SymStore.lltUpdate, h.hn, lltUpdate]
  refine forRangeM_sim 1 (s0.n - 1) _ _ (fun i ha hb s K hs => ?_) h
  have hi : i < s0.n := by omega
  have h0 : 0 < s0.n := by omega
  obtain ⟨s1, e1, h1⟩ := hs.set_full hst hi hi (add (K i i) (mul (K i 0) (trans (K i 0))))
  obtain ⟨s2, e2, h2⟩ := forRangeM_sim (i + 1) (s0.n - (i + 1)) (fun j s => (s.get i j).bind fun a => (s.get i 0).bind fun b =>
      (s.get j 0).bind fun c => (s.set i j (add a (mul b (trans c)))).bind fun s => (s.get i j).bind fun d => s.set j i (trans d))
    (fun j K =>
      let K := setKind K i j (add (K i j) (mul (K i 0) (trans (K j 0))))
      setKind K j i (trans (K i j))) (fun j hja hjb s K hs => by
      have hj : j < s0.n := by omega
      obtain ⟨s', e, h'⟩ := hs.set_full hst hi hj (add (K i j) (mul (K i 0) (trans (K j 0))))
      obtain ⟨s'', e', h''⟩ := h'.set_full hst hj hi (trans (setKind K i j (add (K i j) (mul (K i 0) (trans (K j 0)))) i j))
      refine ⟨s'', ?_, h''⟩
      rw [hs.get_full hi hj, hs.get_full hi h0, hs.get_full hj h0]
      show (s.set i j (add (K i j) (mul (K i 0) (trans (K j 0))))).bind _ = _
      rw [e]
      show (s'.get i j).bind _ = _
      rw [h'.get_full hi hj]
      exact e') h1
  refine ⟨s2, ?_, h2⟩
  show (s.get i i).bind _ = _
  rw [hs.get_full hi hi]
  show (s.get i 0).bind _ = _
  rw [hs.get_full hi h0]
  show (s.set i i (add (K i i) (mul (K i 0) (trans (K i 0))))).bind _ = _
  rw [e1]
  show forRangeM (i + 1) (s1.n - (i + 1)) _ _ = _
  rw [h1.hn]
  exact e2

theorem sub_addr (s : SymStore) (i m r c : ℕ) :
    (s.submatrix i m).off + (r + c * (s.submatrix i m).os) = s.off + ((i + r) + (i + c) * s.os) := by
  simp only [SymStore.submatrix, SymStore.addr]
  ring

theorem sub_sim {s : SymStore} {K : ℕ → ℕ → Option BlockKind} {m : ℕ} (hm : s.n = m + 1) (h : StoreSim s s K) :
    StoreSim (s.submatrix 1 m) (s.submatrix 1 m) (fun i j => K (i + 1) (j + 1)) := by
  refine ⟨rfl, rfl, ?_, fun _ _ => rfl⟩
  intro i hi j hj
  have hi' : i < m := hi
  have hj' : j < m := hj
  rw [sub_addr]
  show s.data[_]? = _
  rw [h.ent (1 + i) (by omega) (1 + j) (by omega), Nat.add_comm 1 i, Nat.add_comm 1 j]

theorem self_sim {s0 s : SymStore} {K : ℕ → ℕ → Option BlockKind} (h : StoreSim s0 s K) : StoreSim s s K := by
  refine ⟨rfl, rfl, ?_, fun _ _ => rfl⟩
  rw [h.hn, h.hoff, h.hos]
  exact h.ent

/-- the kinds of the view put back into those of the object -/
theorem back_sim {s : SymStore} {K K' : ℕ → ℕ → BlockKind} {m : ℕ} {t : SymStore} (hst : s.n ≤ s.os) (hm : s.n = m + 1)
    (h : StoreSim s s (full K)) (ht : StoreSim (s.submatrix 1 m) t (full K')) :
    StoreSim s { s with data := t.data }
      (full fun i j => if 1 ≤ i ∧ 1 ≤ j ∧ i < m + 1 ∧ j < m + 1 then K' (i - 1) (j - 1) else K i j) := by
  refine ⟨rfl, ht.size, ?_, ?_⟩
  · intro i hi j hj
    show t.data[_]? = _
    by_cases hc : 1 ≤ i ∧ 1 ≤ j ∧ i < m + 1 ∧ j < m + 1
    · have := ht.ent (i - 1) (by show i - 1 < m; omega) (j - 1) (by show j - 1 < m; omega)
      rw [sub_addr, Nat.add_sub_cancel' hc.1, Nat.add_sub_cancel' hc.2.1] at this
      rw [this, full, full, if_pos hc]
    · rw [ht.frame _ (fun r hr c hc' e => ?_)]
      · show s.data[_]? = _
        rw [h.ent i hi j hj, full, full, if_neg hc]
      · have hr' : r < m := hr
        have hc'' : c < m := hc'
        rw [sub_addr] at e
        have := addr_inj (os := s.os) (i := i) (j := j) (i' := 1 + r) (j' := 1 + c) (by omega) (by omega) (by omega)
        exact hc (by omega)
  · intro a ha
    show t.data[a]? = _
    rw [ht.frame a (fun r hr c hc' e => ?_)]
    · rfl
    · have hr' : r < m := hr
      have hc'' : c < m := hc'
      rw [sub_addr] at e
      exact ha (1 + r) (by omega) (1 + c) (by omega) e

/-- the flag after the symbolic factorisation of `n` segments -/
def lltFlag (n : ℕ) (K : ℕ → ℕ → BlockKind) (p : Bool) : Bool := if n ≠ 0 ∧ (lltColumn n K).isNone then p else (llt n K).1

theorem llt_sim : ∀ (m : ℕ) (s : SymStore) (K : ℕ → ℕ → BlockKind), s.n = m → s.n ≤ s.os → StoreSim s s (full K) →
    ∃ d, SymStore.llt m s = some ((ProxNLP.llt m K).1, { s with data := d, performed := lltFlag m K s.performed }) ∧
      StoreSim s { s with data := d } (full (ProxNLP.llt m K).2)
  | 0, s, K, hm, hst, h => ⟨s.data, rfl, h⟩
  | m + 1, s, K, hm, hst, h => by
    obtain ⟨s1, e1, h1⟩ := lltRow_sim hst h
    rw [hm, Nat.add_sub_cancel] at h1
    have hn0 : 0 < s.n := by omega
    have hg := h1.get_full hn0 hn0
    have hcol : lltColumn (m + 1) K = match forRange 1 m (fun j K => setKind K 0 j zero) K 0 0 with
      | triL => none
      | triU => none
      | zero => none
      | dense => some (forRange 1 m (fun i K => setKind K i 0 (lltBelowDense (K i 0)))
          (setKind (forRange 1 m (fun j K => setKind K 0 j zero) K) 0 0 triL))
      | diag => some (forRange 1 m (fun j K => setKind K 0 j zero) K) := rfl
    generalize hK1 : forRange 1 m (fun j K => setKind K 0 j zero) K = K1 at h1 hg hcol
    -- the part after the first column, common to both successful pivots
    have tail : ∀ (s2 : SymStore) (K2 : ℕ → ℕ → BlockKind), StoreSim s s2 (full K2) → lltColumn (m + 1) K = some K2 →
        ∃ d, (s2.lltUpdate.bind fun s => (SymStore.llt m (s.submatrix 1 m)).bind fun r =>
            some (r.1, { s with data := r.2.data, performed := r.1 })) =
          some ((ProxNLP.llt (m + 1) K).1, { s with data := d, performed := lltFlag (m + 1) K s.performed }) ∧
        StoreSim s { s with data := d } (full (ProxNLP.llt (m + 1) K).2) := by
      intro s2 K2 h2 hc
      obtain ⟨s3, e3, h3⟩ := lltUpdate_sim hst h2
      rw [hm] at h3
      have hs3n : s3.n = m + 1 := by rw [h3.hn, hm]
      have hs3os : s3.n ≤ s3.os := by rw [h3.hn, h3.hos]; exact hst
      have hsub := sub_sim hs3n (self_sim h3)
      obtain ⟨d, e4, h4⟩ := llt_sim m (s3.submatrix 1 m) (fun i j => lltUpdate (m + 1) K2 (i + 1) (j + 1)) rfl
        (by show m ≤ s3.os; omega) hsub
      have h5 := back_sim hs3os hs3n (self_sim h3) h4
      have hl : ProxNLP.llt (m + 1) K = ((ProxNLP.llt m fun i j => lltUpdate (m + 1) K2 (i + 1) (j + 1)).1,
          fun i j => if 1 ≤ i ∧ 1 ≤ j ∧ i < m + 1 ∧ j < m + 1 then
            (ProxNLP.llt m fun i j => lltUpdate (m + 1) K2 (i + 1) (j + 1)).2 (i - 1) (j - 1) else lltUpdate (m + 1) K2 i j) := by
        simp only [ProxNLP.llt, hc]
      refine ⟨d, ?_, ?_⟩
      · rw [e3]
        show (SymStore.llt m (s3.submatrix 1 m)).bind _ = _
        have hflag : lltFlag (m + 1) K s.performed = (ProxNLP.llt m fun i j => lltUpdate (m + 1) K2 (i + 1) (j + 1)).1 := by
          rw [lltFlag, hc, hl]
          exact if_neg (by simp)
        rw [e4, hflag, hl]
        show some (_, ({ s3 with data := d, performed := _ } : SymStore)) = _
        rw [h3.shape]
      · rw [hl]
        have := h3.trans' h5
        have e : ({ s3 with data := d } : SymStore) = { s with data := d } := by rw [h3.shape]
        rw [← e]
        exact this
    have fail : lltColumn (m + 1) K = none →
        some (false, s1) = some ((ProxNLP.llt (m + 1) K).1, { s with data := s1.data, performed := lltFlag (m + 1) K s.performed }) ∧
          StoreSim s { s with data := s1.data } (full (ProxNLP.llt (m + 1) K).2) := by
      intro hc
      have hl : ProxNLP.llt (m + 1) K = (false, K1) := by
        simp only [ProxNLP.llt, hc, hK1]
      rw [hl, lltFlag, hc, if_pos ⟨by omega, rfl⟩]
      refine ⟨?_, ?_⟩
      · rw [← h1.shape]
      · rw [← h1.shape]
        exact h1
    cases hp : K1 0 0 with
    | triL =>
      rw [hp] at hcol hg
      refine ⟨s1.data, ?_, (fail hcol).2⟩
      rw [← (fail hcol).1]
      simp only [SymStore.llt, e1, hg, Option.bind_some]
    | triU =>
      rw [hp] at hcol hg
      refine ⟨s1.data, ?_, (fail hcol).2⟩
      rw [← (fail hcol).1]
      simp only [SymStore.llt, e1, hg, Option.bind_some]
    | zero =>
      rw [hp] at hcol hg
      refine ⟨s1.data, ?_, (fail hcol).2⟩
      rw [← (fail hcol).1]
      simp only [SymStore.llt, e1, hg, Option.bind_some]
    | diag =>
      rw [hp] at hcol hg
      obtain ⟨d, e, h'⟩ := tail s1 K1 h1 hcol
      refine ⟨d, ?_, h'⟩
      rw [← e]
      simp only [SymStore.llt, e1, hg, Option.bind_some]
    | dense =>
      rw [hp] at hcol hg
      obtain ⟨s2, e2, h2⟩ := lltDense_sim hst hn0 h1
      rw [hm, Nat.add_sub_cancel] at h2
      obtain ⟨d, e, h'⟩ := tail s2 _ h2 hcol
      refine ⟨d, ?_, h'⟩
      rw [← e]
      simp only [SymStore.llt, e1, hg, Option.bind_some, e2]

/-! ### From the arrays to the structure -/

theorem Spec.Holds.sim {s : SymStore} {a : Sym} (h : Holds s a) : StoreSim s s (full a.kinds) :=
  ⟨rfl, rfl, h.kinds, fun _ _ => rfl⟩

theorem Spec.Holds.get {s : SymStore} {a : Sym} (h : Holds s a) {i j : ℕ} (hi : i < s.n) (hj : j < s.n) : s.get i j = some (a.kinds i j) :=
  h.sim.get_full hi hj

theorem Spec.Holds.len {s : SymStore} {a : Sym} (h : Holds s a) {i : ℕ} (hi : i < s.n) : s.len i = some (a.lens i) := by
  rw [SymStore.len, h.lens i hi]
  rfl

theorem Spec.Holds.room {s : SymStore} {a : Sym} (h : Holds s a) : Room s :=
  ⟨h.stride, fun i hi => (List.getElem?_eq_some_iff.1 (h.lens i hi)).1,
    fun i hi j hj => (List.getElem?_eq_some_iff.1 (h.kinds i hi j hj)).1⟩

theorem Spec.Inside.refl (s : SymStore) : Inside s s := ⟨⟨rfl, rfl, rfl, rfl⟩, ⟨rfl, rfl⟩, fun _ _ => rfl, fun _ _ => rfl⟩

theorem Spec.Inside.trans {s t u : SymStore} (h : Inside s t) (h' : Inside t u) : Inside s u := by
  obtain ⟨p1, p2, p3, p4⟩ := h.place
  obtain ⟨q1, q2, q3, q4⟩ := h'.place
  refine ⟨⟨q1.trans p1, q2.trans p2, q3.trans p3, q4.trans p4⟩, ⟨h'.sizes.1.trans h.sizes.1, h'.sizes.2.trans h.sizes.2⟩, ?_, ?_⟩
  · intro a ha
    rw [h'.data a (by rw [p1, p3, p4]; exact ha), h.data a ha]
  · intro a ha
    rw [h'.lens a (by rw [p2, p3]; exact ha), h.lens a ha]

theorem Spec.Inside.room {s t : SymStore} (h : Inside s t) (hr : Room s) : Room t := by
  obtain ⟨p1, p2, p3, p4⟩ := h.place
  refine ⟨by rw [p3, p4]; exact hr.stride, ?_, ?_⟩
  · rw [p2, p3, h.sizes.2]
    exact hr.lens
  · rw [p1, p3, p4, h.sizes.1]
    exact hr.kinds

theorem lltInPlace_store {s : SymStore} {a : Sym} (h : Holds s a) :
    ∃ s', s.lltInPlace = some ((lltInPlace a).1, s') ∧ Holds s' (lltInPlace a).2 ∧ Inside s s' := by
  obtain ⟨d, e, hd⟩ := llt_sim s.n s a.kinds rfl h.stride h.sim
  refine ⟨{ s with data := d, performed := lltFlag s.n a.kinds s.performed }, by
    rw [SymStore.lltInPlace, e, show (lltInPlace a).1 = (ProxNLP.llt s.n a.kinds).1 by rw [h.count]; rfl], ⟨h.count, ?_, h.stride, h.lens, ?_⟩,
    ⟨⟨rfl, rfl, rfl, rfl⟩, ⟨hd.size, rfl⟩, hd.frame, fun _ _ => rfl⟩⟩
  · show lltFlag s.n a.kinds s.performed = _
    rw [h.count, h.flag]
    rfl
  · intro i hi j hj
    have := hd.ent i hi j hj
    rw [h.count] at this
    exact this

/-! ### Copies -/

theorem setLen_loop {v : ℕ → ℕ} {n off : ℕ} (out : SymStore) (hroom : ∀ i < n, out.lo + (i + off) < out.lensArr.length)
    (f : ℕ → SymStore → Option SymStore) (hf : ∀ i < n, ∀ s : SymStore, f i s = s.setLen (i + off) (v i)) :
    ∃ L, forRangeM 0 n f out = some { out with lensArr := L } ∧ L.length = out.lensArr.length ∧
      (∀ i < n, L[out.lo + (i + off)]? = some (some (v i))) ∧ ∀ a, (∀ i < n, a ≠ out.lo + (i + off)) → L[a]? = out.lensArr[a]? := by
  obtain ⟨s', e, hs, h1, h2, h3⟩ := forRangeM_inv (fun t s => s = { out with lensArr := s.lensArr } ∧ s.lensArr.length = out.lensArr.length ∧
      (∀ i < t, s.lensArr[out.lo + (i + off)]? = some (some (v i))) ∧
      ∀ a, (∀ i < t, a ≠ out.lo + (i + off)) → s.lensArr[a]? = out.lensArr[a]?) 0 f n out
    ⟨rfl, rfl, fun i hi => absurd hi (Nat.not_lt_zero i), fun _ _ => rfl⟩ (fun t ht s hs => by
      obtain ⟨hs0, hs1, hs2, hs3⟩ := hs
      have hlo : s.lo = out.lo := by rw [hs0]
      have hlt : s.lo + (t + off) < s.lensArr.length := by rw [hlo, hs1]; exact hroom t ht
      refine ⟨{ s with lensArr := s.lensArr.set (s.lo + (t + off)) (some (v t)) }, ?_, ?_, ?_, ?_, ?_⟩
      · rw [Nat.zero_add, hf t ht, SymStore.setLen, if_pos hlt]
      · show _ = ({ out with lensArr := s.lensArr.set (s.lo + (t + off)) (some (v t)) } : SymStore)
        rw [hs0]
      · show (s.lensArr.set _ _).length = _
        rw [List.length_set, hs1]
      · intro i hi
        show (s.lensArr.set _ _)[_]? = _
        rw [List.getElem?_set]
        by_cases hit : i = t
        · subst hit
          rw [hlo] at hlt ⊢
          simp [hlt]
        · rw [if_neg (by omega), hs2 i (by omega)]
      · intro a ha
        show (s.lensArr.set _ _)[_]? = _
        rw [List.getElem?_set, if_neg (by rw [hlo]; exact fun e => ha t (Nat.lt_succ_self t) e.symm)]
        exact hs3 a fun i hi => ha i (Nat.lt_succ_of_lt hi))
  exact ⟨s'.lensArr, by rw [e]; exact congrArg some hs, h1, h2, h3⟩

/-- what the arrays of an object with room hold -/
theorem room_sim {s : SymStore} (h : Room s) :
    StoreSim s s (fun i j => (s.data[s.off + (i + j * s.os)]?).join) := by
  refine ⟨rfl, rfl, ?_, fun _ _ => rfl⟩
  intro i hi j hj
  rw [List.getElem?_eq_getElem (h.kinds i hi j hj)]
  rfl

theorem fill_sim {s0 s : SymStore} {K : ℕ → ℕ → Option BlockKind} (hst : s0.n ≤ s0.os) (h : StoreSim s0 s K) (v : ℕ → ℕ → BlockKind)
    (f : ℕ → ℕ → SymStore → Option SymStore) (hf : ∀ i < s0.n, ∀ j < s0.n, ∀ s : SymStore, f i j s = s.set i j (v i j)) :
    ∃ s', forRangeM 0 s0.n (fun i s => forRangeM 0 s0.n (f i) s) s = some s' ∧ StoreSim s0 s' (full v) := by
  obtain ⟨s', e, h'⟩ := forRangeM_inv (fun t s => StoreSim s0 s (fun a b => if a < t then some (v a b) else K a b)) 0
    (fun i s => forRangeM 0 s0.n (f i) s) s0.n s (by simpa using h) (fun i hi s hs => by
      obtain ⟨s', e, h'⟩ := forRangeM_inv (fun t s => StoreSim s0 s (fun a b => if a < i ∨ a = i ∧ b < t then some (v a b) else K a b)) 0
        (f i) s0.n s (by simpa using hs) (fun j hj s hs => by
          obtain ⟨s', e, h'⟩ := hs.set_ok hst hi hj (v i j)
          refine ⟨s', by rw [Nat.zero_add, hf i hi j hj, e], ?_⟩
          have : putO (fun a b => if a < i ∨ a = i ∧ b < j then some (v a b) else K a b) i j (v i j) =
              fun a b => if a < i ∨ a = i ∧ b < j + 1 then some (v a b) else K a b := by
            funext a b
            simp only [putO]
            by_cases hab : a = i ∧ b = j
            · obtain ⟨rfl, rfl⟩ := hab
              rw [if_pos ⟨rfl, rfl⟩, if_pos (by omega)]
            · rw [if_neg hab]
              by_cases hc : a < i ∨ a = i ∧ b < j
              · rw [if_pos hc, if_pos (by omega)]
              · rw [if_neg hc, if_neg (by omega)]
          rw [← this]
          exact h')
      refine ⟨s', by rw [Nat.zero_add, e], h'.shape, h'.size, ?_, h'.frame⟩
      intro a ha b hb
      rw [h'.ent a ha b hb]
      by_cases hc : a < i + 1
      · rw [if_pos hc, if_pos (by omega)]
      · rw [if_neg hc, if_neg (by omega)])
  refine ⟨s', e, h'.shape, h'.size, ?_, h'.frame⟩
  intro a ha b hb
  rw [h'.ent a ha b hb, if_pos ha]
  rfl

theorem deepCopy_store {inp out : SymStore} {a : Sym} (h : Holds inp a) (hr : Room out) (perm : Option (ℕ → Option ℕ)) (q : ℕ → ℕ)
    (hq : ∀ i < out.n, (SymStore.permAt perm i) = some (q i)) (hlt : ∀ i < out.n, q i < inp.n) (b : Sym)
    (hb : b.n = out.n) :
    ∃ s', SymStore.deepCopy inp out perm = some s' ∧ Holds s' (symCopy a b q) ∧ Inside out s' := by
  obtain ⟨L, e1, hL, hLv, hLf⟩ := setLen_loop (v := fun i => a.lens (q i)) (n := out.n) (off := 0) out
    (fun i hi => by rw [Nat.add_zero]; exact hr.lens i hi)
    (fun i s => (SymStore.permAt perm i).bind fun pi => (inp.len pi).bind fun l => s.setLen i l)
    (fun i hi s => by
      show Option.bind (SymStore.permAt perm i) _ = _
      rw [hq i hi]
      show (inp.len (q i)).bind _ = _
      rw [h.len (hlt i hi)]
      rfl)
  have hr1 : Room ({ out with lensArr := L } : SymStore) := ⟨hr.stride, fun i hi => by
    show out.lo + i < L.length
    rw [hL]
    exact hr.lens i hi, hr.kinds⟩
  obtain ⟨s2, e2, h2⟩ := fill_sim (s0 := { out with lensArr := L }) hr1.stride (room_sim hr1) (fun i j => a.kinds (q i) (q j))
    (fun i j s => (SymStore.permAt perm i).bind fun pi =>
      (SymStore.permAt perm j).bind fun pj => (inp.get pi pj).bind fun k => s.set i j k)
    (fun i hi j hj s => by
      show Option.bind (SymStore.permAt perm i) _ = _
      rw [hq i hi]
      show Option.bind (SymStore.permAt perm j) _ = _
      rw [hq j hj]
      show (inp.get (q i) (q j)).bind _ = _
      rw [h.get (hlt i hi) (hlt j hj)]
      rfl)
  refine ⟨{ s2 with performed := inp.performed }, ?_, ⟨?_, ?_, ?_, ?_, ?_⟩, ⟨?_, ?_, ?_, ?_⟩⟩
  · simp only [SymStore.deepCopy]
    refine (congrArg (fun o => Option.bind o _) e1).trans ?_
    exact (congrArg (fun o => Option.bind o _) e2).trans rfl
  · show s2.n = b.n
    rw [h2.hn, hb]
  · exact h.flag
  · show s2.n ≤ s2.os
    rw [h2.hn, h2.hos]
    exact hr.stride
  · intro i hi
    have hi' : i < out.n := by
      have : i < s2.n := hi
      rwa [h2.hn] at this
    show s2.lensArr[s2.lo + i]? = _
    rw [h2.hlens, h2.hlo]
    have := hLv i hi'
    rw [Nat.add_zero] at this
    show L[out.lo + i]? = _
    rw [this]
    simp [symCopy, hb, hi']
  · intro i hi j hj
    have hi' : i < out.n := by
      have : i < s2.n := hi
      rwa [h2.hn] at this
    have hj' : j < out.n := by
      have : j < s2.n := hj
      rwa [h2.hn] at this
    show s2.data[s2.off + (i + j * s2.os)]? = _
    rw [h2.hoff, h2.hos]
    rw [h2.ent i hi' j hj']
    simp [symCopy, hb, hi', hj', full]
  · exact ⟨h2.hoff, h2.hlo, h2.hn, h2.hos⟩
  · refine ⟨h2.size, ?_⟩
    show s2.lensArr.length = _
    rw [h2.hlens]
    exact hL
  · exact h2.frame
  · intro x hx
    show s2.lensArr[x]? = _
    rw [h2.hlens]
    exact hLf x fun i hi => by rw [Nat.add_zero]; exact hx i hi

theorem alloc_room {n os : ℕ} (h : n ≤ os) : Room (SymStore.alloc n os) := by
  refine ⟨h, fun i hi => ?_, fun i hi j hj => ?_⟩
  · show 0 + i < (List.replicate n (none : Option ℕ)).length
    rw [List.length_replicate, Nat.zero_add]
    exact hi
  · have hi' : i < n := hi
    have hj' : j < n := hj
    show 0 + (i + j * os) < (List.replicate (n * os) (none : Option BlockKind)).length
    rw [List.length_replicate]
    calc 0 + (i + j * os) < os + j * os := by omega
      _ = (j + 1) * os := by ring
      _ ≤ n * os := Nat.mul_le_mul_right _ hj'

/-- Structures that agree on their entries are held by the same arrays. -/
theorem Spec.Holds.congr {s : SymStore} {a b : Sym} (h : Holds s a) (hn : a.n = b.n) (hp : a.performed = b.performed)
    (hl : ∀ i < a.n, a.lens i = b.lens i) (hk : ∀ i < a.n, ∀ j < a.n, a.kinds i j = b.kinds i j) : Holds s b := by
  have hc := h.count
  refine ⟨h.count.trans hn, h.flag.trans hp, h.stride, fun i hi => ?_, fun i hi j hj => ?_⟩
  · rw [h.lens i hi, hl i (by omega)]
  · rw [h.kinds i hi j hj, hk i (by omega) j (by omega)]

theorem copy_store {s : SymStore} {a : Sym} (h : Holds s a) : ∃ s', s.copy = some s' ∧ Holds s' a ∧ s'.n = s.n ∧ s'.os = s.os ∧ s'.off = 0 := by
  obtain ⟨s', e, h', hin⟩ := deepCopy_store h (alloc_room h.stride) none id (fun _ _ => rfl) (fun i hi => hi) a h.count.symm
  refine ⟨s', e, h'.congr rfl rfl (fun i hi => ?_) (fun i hi j hj => ?_), hin.place.2.2.1, hin.place.2.2.2, hin.place.1⟩
  · exact if_pos hi
  · exact if_pos ⟨hi, hj⟩

theorem transpose_store {s : SymStore} {a : Sym} (h : Holds s a) : ∃ s', s.transpose = some s' ∧ Holds s' a.transpose := by
  obtain ⟨o, e, ho, hn, hos, hoff⟩ := copy_store h
  obtain ⟨s2, e2, h2⟩ := fill_sim (s0 := o) ho.stride ho.sim (fun i j => trans (a.kinds j i))
    (fun i j o => (s.get j i).bind fun k => o.set i j (trans k)) (fun i hi j hj o => by
      rw [hn] at hi hj
      show (s.get j i).bind _ = _
      rw [h.get hj hi]
      rfl)
  rw [hn] at e2
  refine ⟨s2, ?_, ⟨?_, ?_, ?_, ?_, ?_⟩⟩
  · rw [SymStore.transpose, e]
    exact e2
  · rw [h2.hn, ho.count]
    rfl
  · rw [h2.hperf, ho.flag]
    rfl
  · rw [h2.hn, h2.hos]
    exact ho.stride
  · rw [h2.hn, h2.hlens, h2.hlo]
    exact ho.lens
  · rw [h2.hn, h2.hoff, h2.hos]
    intro i hi j hj
    rw [h2.ent i hi j hj]
    have := ho.count
    simp only [full, Sym.transpose]
    rw [if_pos (by omega)]

/-! ### Reading -/

theorem forRangeM_pure {σ : Type} (lo n : ℕ) (f : ℕ → σ → Option σ) (g : ℕ → σ → σ) (s : σ)
    (h : ∀ t, lo ≤ t → t < lo + n → ∀ s, f t s = some (g t s)) : forRangeM lo n f s = some (forRange lo n g s) := by
  obtain ⟨s', e, h'⟩ := forRangeM_inv (fun t s' => s' = forRange lo t g s) lo f n s rfl (fun t ht s' hs => by
    subst hs
    exact ⟨_, h (lo + t) (by omega) (by omega) _, rfl⟩)
  rw [e, h']

theorem countNnz_store {s : SymStore} {a : Sym} (h : Holds s a) : s.countNnz = some (countNnz a) := by
  rw [SymStore.countNnz, countNnz, ← h.count]
  refine forRangeM_pure _ _ _ _ _ fun i _ hi acc => ?_
  refine forRangeM_pure _ _ _ _ _ fun j _ hj acc => ?_
  rw [h.get (by omega) (by omega), h.len (by omega), h.len (by omega)]
  rfl

theorem checkIfSymmetric_store {s : SymStore} {a : Sym} (h : Holds s a) : s.checkIfSymmetric = some (checkIfSymmetric a) := by
  rw [SymStore.checkIfSymmetric, checkIfSymmetric, ← h.count]
  refine forRangeM_pure _ _ _ _ _ fun i _ hi acc => ?_
  refine forRangeM_pure _ _ _ _ _ fun j _ hj acc => ?_
  rw [h.get (by omega) (by omega), h.get (by omega) (by omega)]
  rfl

end ProxNLP
