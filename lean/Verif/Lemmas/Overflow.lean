import Verif.Spec.Overflow
import Verif.Lemmas.ExtSolver
import Verif.Lemmas.FloatSolver

/-! Lemmas for C114: operations with rounding and overflow, rows, sums, and the loop. -/

set_option linter.unusedSectionVars false
namespace ProxNLP

open ExtScalar Spec

variable {X K H : Type} {n m : ℕ} [Field K] [LinearOrder K] [IsStrictOrderedRing K]

/-! ### Operations -/

theorem rd_fin {A : OvArith K} {e : ExtScalar K} {r : K} (h : A.rd e = fin r) : ∃ x, e = fin x ∧ r = A.rnd x ∧ |r| ≤ A.big := by
  cases e with
  | fin x =>
    unfold OvArith.rd at h
    simp only at h
    split_ifs at h with h1 h2
    cases h
    exact ⟨x, rfl, rfl, abs_le.2 ⟨not_lt.1 h2, not_lt.1 h1⟩⟩
  | nan => cases h
  | posInf => cases h
  | negInf => cases h

theorem rd_nan {A : OvArith K} {e : ExtScalar K} (h : A.rd e = nan) : e = nan := by
  cases e with
  | fin x =>
    unfold OvArith.rd at h
    simp only at h
    split_ifs at h
  | nan => rfl
  | posInf => cases h
  | negInf => cases h

theorem rd_posInf {A : OvArith K} {e : ExtScalar K} (h : A.rd e = posInf) : e = posInf ∨ ∃ x, e = fin x ∧ A.big < A.rnd x := by
  cases e with
  | fin x =>
    unfold OvArith.rd at h
    simp only at h
    split_ifs at h with h1 h2
    exact .inr ⟨x, rfl, h1⟩
  | nan => cases h
  | posInf => exact .inl rfl
  | negInf => cases h

theorem rd_negInf {A : OvArith K} {e : ExtScalar K} (h : A.rd e = negInf) : e = negInf ∨ ∃ x, e = fin x ∧ A.rnd x < -A.big := by
  cases e with
  | fin x =>
    unfold OvArith.rd at h
    simp only at h
    split_ifs at h with h1 h2
    exact .inr ⟨x, rfl, h2⟩
  | nan => cases h
  | posInf => cases h
  | negInf => exact .inl rfl

/-! ### Sums -/

theorem ovEval_fin {I : Type} {A : OvArith K} {g : ExtScalar K} {f : I → ExtScalar K × ExtScalar K} :
    ∀ {t : SumTree I} {r : K}, t.ovEval A g f = fin r →
      (none ∈ t.terms → ∃ a, g = fin a) ∧ (∀ i, some i ∈ t.terms → (∃ a, (f i).1 = fin a) ∧ ∃ a, (f i).2 = fin a) := by
  intro t
  induction t with
  | zero => intro r h; simp [SumTree.terms]
  | init => intro r h; exact ⟨fun _ => ⟨r, h⟩, by simp [SumTree.terms]⟩
  | prod i =>
    intro r h
    obtain ⟨x, h1, -⟩ := rd_fin h
    obtain ⟨a, b, h2, h3, -⟩ := ext_mul_fin h1
    refine ⟨by simp [SumTree.terms], fun k hk => ?_⟩
    have : k = i := by simpa [SumTree.terms] using hk
    subst this
    exact ⟨⟨a, h2⟩, b, h3⟩
  | add s t ihs iht =>
    intro r h
    obtain ⟨x, h1, -⟩ := rd_fin h
    obtain ⟨a, b, h2, h3, -⟩ := ext_add_fin h1
    obtain ⟨s1, s2⟩ := ihs h2
    obtain ⟨t1, t2⟩ := iht h3
    simp only [SumTree.terms, List.mem_append]
    exact ⟨fun h => h.elim s1 t1, fun i h => h.elim (s2 i) (t2 i)⟩
  | fma i t iht =>
    intro r h
    obtain ⟨x, h1, -⟩ := rd_fin h
    obtain ⟨a, b, h2, h3, -⟩ := ext_add_fin h1
    obtain ⟨p, q, h4, h5, -⟩ := ext_mul_fin h2
    obtain ⟨t1, t2⟩ := iht h3
    refine ⟨fun hk => t1 (by simpa [SumTree.terms] using hk), fun k hk => ?_⟩
    rcases List.mem_cons.1 (show some k ∈ some i :: t.terms from hk) with e | e
    · cases e
      exact ⟨⟨p, h4⟩, q, h5⟩
    · exact t2 k e

/-- a finite sum of finite terms is the sum rounded without overflow -/
theorem ovEval_eq {I : Type} {A : OvArith K} (g : K) (f : I → K × K) :
    ∀ {t : SumTree I} {r : K}, t.ovEval A (fin g) (fun i => (fin (f i).1, fin (f i).2)) = fin r → r = t.eval A.toRounding g f := by
  intro t
  induction t with
  | zero => intro r h; cases h; rfl
  | init => intro r h; cases h; rfl
  | prod i =>
    intro r h
    obtain ⟨x, h1, h2, -⟩ := rd_fin h
    cases h1
    exact h2
  | add s t ihs iht =>
    intro r h
    obtain ⟨x, h1, h2, -⟩ := rd_fin h
    obtain ⟨a, b, h3, h4, h5⟩ := ext_add_fin h1
    rw [h2, h5, ihs h3, iht h4]
    rfl
  | fma i t iht =>
    intro r h
    obtain ⟨x, h1, h2, -⟩ := rd_fin h
    obtain ⟨a, b, h3, h4, h5⟩ := ext_add_fin h1
    cases h3
    rw [h2, h5, iht h4]
    rfl

/-! ### The norm -/

theorem stdMax_lt_ext {a b : ExtScalar K} {t : K} (ha : a ≠ nan) (hb : b ≠ nan) (h : lt (stdMax a b) (fin t) = true) :
    lt a (fin t) = true ∧ lt b (fin t) = true := by
  unfold stdMax at h
  cases a with
  | nan => exact absurd rfl ha
  | posInf => cases b <;> simp_all [lt]
  | negInf => cases b <;> simp_all [lt]
  | fin x =>
    cases b with
    | nan => exact absurd rfl hb
    | posInf => simp_all [lt]
    | negInf => simp_all [lt]
    | fin y =>
      by_cases hxy : x < y
      · simp only [lt, hxy, decide_true, if_true, decide_eq_true_eq] at h ⊢
        exact ⟨hxy.trans h, h⟩
      · simp only [lt, hxy, decide_false, decide_eq_true_eq] at h ⊢
        exact ⟨by simpa using h, lt_of_le_of_lt (not_lt.1 hxy) (by simpa using h)⟩

theorem norm_ne_nan {nrm : List (ExtScalar K) → ExtScalar K} (hn : LargestNorm nrm) {l : List (ExtScalar K)} (hl : nan ∉ l) : nrm l ≠ nan := by
  obtain ⟨-, h | ⟨e, he, h⟩⟩ := hn l hl
  · rw [h]; simp
  · rw [h]
    intro h'
    cases e <;> simp [ExtScalar.abs] at h'
    exact hl he

theorem norm_lt {nrm : List (ExtScalar K) → ExtScalar K} (hn : LargestNorm nrm) {l : List (ExtScalar K)} (hl : nan ∉ l) {t : K}
    (h : lt (nrm l) (fin t) = true) : ∀ e ∈ l, ∃ r, e = fin r ∧ |r| < t := by
  intro e he
  have h1 := (hn l hl).1 e he
  cases hN : nrm l with
  | nan => rw [hN] at h; simp [lt] at h
  | posInf => rw [hN] at h; simp [lt] at h
  | negInf => rw [hN] at h1; cases e <;> simp [ExtScalar.abs, le] at h1
  | fin N =>
    rw [hN] at h h1
    simp only [lt, decide_eq_true_eq] at h
    cases e with
    | fin r =>
      simp only [ExtScalar.abs, le, decide_eq_true_eq] at h1
      exact ⟨r, rfl, h1.trans_lt h⟩
    | nan => exact absurd he hl
    | posInf => simp [ExtScalar.abs, le] at h1
    | negInf => simp [ExtScalar.abs, le] at h1

/-! ### Rows -/

theorem ovShift_ne_nan (A : OvArith K) (fused : Bool) (mu c lam : K) : ovShift A fused mu (fin c) (fin lam) ≠ nan := by
  intro h
  cases fused with
  | true => cases rd_nan (show A.rd (fin c + fin mu * fin lam) = nan from h)
  | false =>
    have h1 := rd_nan (show A.rd (fin c + A.rd (fin mu * fin lam)) = nan from h)
    cases hq : A.rd (fin mu * fin lam) with
    | nan => cases rd_nan hq
    | fin q => rw [hq] at h1; cases h1
    | posInf => rw [hq] at h1; cases h1
    | negInf => rw [hq] at h1; cases h1

theorem rnd_nonpos_le (A : OvArith K) {x : K} (hx : x ≤ 0) : A.rnd x ≤ A.eta := by
  have h := (abs_le.1 (A.err x)).2
  rw [abs_of_nonpos hx] at h
  have h1 : 0 ≤ (1 - A.u) * -x := mul_nonneg (by linarith [A.u_lt_one]) (by linarith)
  nlinarith only [h, h1]

theorem rnd_nonneg_ge (A : OvArith K) {x : K} (hx : 0 ≤ x) : -A.eta ≤ A.rnd x := by
  have h := (abs_le.1 (A.err x)).1
  rw [abs_of_nonneg hx] at h
  have h1 : 0 ≤ (1 - A.u) * x := mul_nonneg (by linarith [A.u_lt_one]) hx
  nlinarith only [h, h1]

theorem ext_sign_fin (a : K) : sign (fin a) = fin (signK a) := by
  unfold sign signK
  by_cases h1 : 0 < a
  · simp [lt, h1, h1.not_gt]
  · by_cases h2 : a < 0
    · simp [lt, h1, h2]
    · simp [lt, h1, h2]

theorem ovProj_l1_inf (A : OvArith K) (mu : K) : ExtSet.l1.ovProj A mu posInf = posInf ∧ ExtSet.l1.ovProj A mu negInf = negInf := by
  constructor
  · show infTimes _ = _
    simp [infTimes, lt]
  · show infTimes _ = _
    simp [infTimes, lt]

theorem ovProj_ne_nan {A : OvArith K} (hA : A.eta ≤ A.big) {s : ExtSet K} (hs : RowInRange A.big s) {mu : K} (hmu : 0 ≤ mu) {z : ExtScalar K}
    (hz : z ≠ nan) : s.ovProj A mu z ≠ nan := by
  cases s with
  | equality => simp [ExtSet.ovProj]
  | negOrthant => simp only [ExtSet.ovProj, stdMin]; split_ifs <;> simp [hz]
  | box lo hi =>
    obtain ⟨⟨q, h1, h2⟩, -⟩ := hs
    have hlo : lo ≠ nan := by rintro rfl; simp [le] at h1
    have hhi : hi ≠ nan := by rintro rfl; simp [le] at h2
    simp only [ExtSet.ovProj, stdMin, stdMax]
    split_ifs <;> assumption
  | l1 =>
    cases z with
    | nan => exact absurd rfl hz
    | posInf => rw [(ovProj_l1_inf A mu).1]; simp
    | negInf => rw [(ovProj_l1_inf A mu).2]; simp
    | fin a =>
      intro h
      have h' : fin (signK a) * stdMax (A.rd (fin (|a| - mu))) (fin 0) = nan := by
        rw [← ext_sign_fin, ← ext_fin_sub]; exact h
      cases hr : A.rd (fin (|a| - mu)) with
      | nan => cases rd_nan hr
      | negInf => rw [hr] at h'; cases h'
      | fin b =>
        rw [hr] at h'
        unfold stdMax at h'
        split_ifs at h' <;> cases h'
      | posInf =>
        rw [hr] at h'
        have h2 : infTimes (signK a) = nan := h'
        have ha : a = 0 := by
          by_contra hne
          rcases lt_or_gt_of_ne hne with h3 | h3
          · simp [infTimes, signK, h3, h3.not_gt] at h2
            split_ifs at h2
          · simp [infTimes, signK, h3] at h2
        subst ha
        rcases rd_posInf hr with h3 | ⟨x, h3, h4⟩
        · cases h3
        · cases h3
          have := rnd_nonpos_le A (x := |0| - mu) (by rw [abs_zero]; linarith)
          linarith

/-- a row never computes a NaN from numbers -/
theorem ovRowErr_ne_nan {A : OvArith K} (hA : A.eta ≤ A.big) {s : ExtSet K} (hs : RowInRange A.big s) (fused : Bool) {mu : K} (hmu : 0 ≤ mu)
    (c lam : K) : ovRowErr A s fused mu (fin c) (fin lam) ≠ nan := by
  intro h
  have h1 := rd_nan h
  have h2 := ovProj_ne_nan hA hs hmu (ovShift_ne_nan A fused mu c lam)
  cases hp : s.ovProj A mu (ovShift A fused mu (fin c) (fin lam)) with
  | nan => exact h2 hp
  | fin b => rw [hp] at h1; cases h1
  | posInf => rw [hp] at h1; cases h1
  | negInf => rw [hp] at h1; cases h1

/-- projections are non-expansive, from their variational characterisation -/
theorem vi_nonexp {s : ExtSet K} {mu z z' p p' : K} (hp : ExtMem s p) (hp' : ExtMem s p')
    (h : ∀ q, ExtMem s q → (z - p) * (q - p) ≤ mu * (extPen s q - extPen s p))
    (h' : ∀ q, ExtMem s q → (z' - p') * (q - p') ≤ mu * (extPen s q - extPen s p')) : |p - p'| ≤ |z - z'| := by
  have a := h p' hp'
  have b := h' p hp
  have key : (p - p') ^ 2 ≤ (z - z') * (p - p') := by nlinarith only [a, b]
  by_contra hc
  have hc := not_le.1 hc
  have h1 : (z - z') * (p - p') ≤ |z - z'| * |p - p'| := by rw [← abs_mul]; exact le_abs_self _
  have h2 : |z - z'| * |p - p'| < |p - p'| * |p - p'| := mul_lt_mul_of_pos_right hc ((abs_nonneg _).trans_lt hc)
  rw [← sq, sq_abs] at h2
  linarith

theorem ovShift_fin {A : OvArith K} {fused : Bool} {mu c lam w : K} (h : ovShift A fused mu (fin c) (fin lam) = fin w) :
    w = flShift A.toRounding fused mu c lam := by
  cases fused with
  | true =>
    obtain ⟨x, h1, h2, -⟩ := rd_fin (show A.rd (fin c + fin mu * fin lam) = fin w from h)
    cases h1
    exact h2
  | false =>
    obtain ⟨x, h1, h2, -⟩ := rd_fin (show A.rd (fin c + A.rd (fin mu * fin lam)) = fin w from h)
    obtain ⟨a, b, h3, h4, h5⟩ := ext_add_fin h1
    obtain ⟨y, h6, h7, -⟩ := rd_fin h4
    cases h3
    cases h6
    rw [h2, h5, h7]
    rfl

theorem ovShift_posInf {A : OvArith K} (hA : A.eta ≤ A.big) {fused : Bool} {mu c lam : K} (h : ovShift A fused mu (fin c) (fin lam) = posInf) :
    A.big < flShift A.toRounding fused mu c lam ∨ 0 < mu * lam := by
  cases fused with
  | true =>
    rcases rd_posInf (show A.rd (fin c + fin mu * fin lam) = posInf from h) with h1 | ⟨x, h1, h2⟩
    · cases h1
    · cases h1
      exact .inl h2
  | false =>
    cases hq : A.rd (fin mu * fin lam) with
    | nan => cases rd_nan hq
    | negInf =>
      have h' : A.rd (fin c + A.rd (fin mu * fin lam)) = posInf := h
      rw [hq] at h'
      cases h'
    | fin q =>
      have h' : A.rd (fin c + A.rd (fin mu * fin lam)) = posInf := h
      rw [hq] at h'
      rcases rd_posInf h' with h1 | ⟨x, h1, h2⟩
      · cases h1
      · cases h1
        obtain ⟨y, h6, h7, -⟩ := rd_fin hq
        cases h6
        left
        rw [h7] at h2
        exact h2
    | posInf =>
      rcases rd_posInf hq with h1 | ⟨x, h1, h2⟩
      · cases h1
      · cases h1
        right
        by_contra hn
        have := rnd_nonpos_le A (x := mu * lam) (not_lt.1 hn)
        exact absurd (h2.trans_le (this.trans hA)) (lt_irrefl _)

theorem ovShift_negInf {A : OvArith K} (hA : A.eta ≤ A.big) {fused : Bool} {mu c lam : K} (h : ovShift A fused mu (fin c) (fin lam) = negInf) :
    flShift A.toRounding fused mu c lam < -A.big ∨ mu * lam < 0 := by
  cases fused with
  | true =>
    rcases rd_negInf (show A.rd (fin c + fin mu * fin lam) = negInf from h) with h1 | ⟨x, h1, h2⟩
    · cases h1
    · cases h1
      exact .inl h2
  | false =>
    cases hq : A.rd (fin mu * fin lam) with
    | nan => cases rd_nan hq
    | posInf =>
      have h' : A.rd (fin c + A.rd (fin mu * fin lam)) = negInf := h
      rw [hq] at h'
      cases h'
    | fin q =>
      have h' : A.rd (fin c + A.rd (fin mu * fin lam)) = negInf := h
      rw [hq] at h'
      rcases rd_negInf h' with h1 | ⟨x, h1, h2⟩
      · cases h1
      · cases h1
        obtain ⟨y, h6, h7, -⟩ := rd_fin hq
        cases h6
        left
        rw [h7] at h2
        exact h2
    | negInf =>
      rcases rd_negInf hq with h1 | ⟨x, h1, h2⟩
      · cases h1
      · cases h1
        right
        by_contra hn
        have := rnd_nonneg_ge A (x := mu * lam) (not_lt.1 hn)
        have h3 : -A.big ≤ A.rnd (mu * lam) := by linarith
        exact absurd (h3.trans_lt h2) (lt_irrefl _)

theorem rowInRange_proper {big : K} {s : ExtSet K} (hs : RowInRange big s) : ExtProper s := by
  cases s with
  | equality => exact ⟨0, rfl⟩
  | negOrthant => exact ⟨0, le_refl (0 : K)⟩
  | box lo hi => exact hs.1
  | l1 => exact ⟨0, trivial⟩

theorem rowSlack_nonneg (R : Rounding K) {mu : K} (hmu : 0 ≤ mu) (c lam : K) : 0 ≤ rowSlack R mu c lam := by
  have h := R.u_nonneg
  have he := R.eta_nonneg
  have h1 : (1 : K) ≤ (1 + R.u) ^ 3 := one_le_pow₀ (by linarith)
  unfold rowSlack
  have : 0 ≤ ((1 + R.u) ^ 3 - 1) * (|c| + |mu * lam| + mu) := mul_nonneg (by linarith) (by positivity)
  positivity

theorem flShift_slack (R : Rounding K) (fused : Bool) {mu : K} (hmu : 0 ≤ mu) (c lam : K) :
    |flShift R fused mu c lam - (c + mu * lam)| ≤ rowSlack R mu c lam := by
  refine (flShift_error R fused mu c lam).trans ?_
  have u0 := R.u_nonneg
  have e0 := R.eta_nonneg
  unfold rowSlack
  have a1 : (1 + R.u) ^ 2 ≤ (1 + R.u) ^ 3 := pow_le_pow_right₀ (by linarith) (by norm_num)
  have a2 : 1 ≤ (1 + R.u) ^ 2 := one_le_pow₀ (by linarith)
  have a3 : 0 ≤ |c| + |mu * lam| := by positivity
  have b1 := mul_le_mul_of_nonneg_right a1 a3
  have b2 : 0 ≤ ((1 + R.u) ^ 3 - 1) * mu := mul_nonneg (by linarith) hmu
  have b3 := mul_le_mul_of_nonneg_left a1 e0
  have b4 : 0 ≤ R.eta * (1 + R.u) ^ 3 := by positivity
  linarith

/-- the computed projection is near the exact one, or the exact one is nearer to the value; this also when the shifted value overflowed -/
theorem ovProj_close {A : OvArith K} (hA : A.eta ≤ A.big) {s : ExtSet K} (hs : RowInRange A.big s) (fused : Bool) {mu : K} (hmu : 0 < mu)
    (c lam p q : K) (hp : s.ovProj A mu (ovShift A fused mu (fin c) (fin lam)) = fin p) (hq1 : s.proj mu (fin (c + mu * lam)) = fin q)
    (hq2 : ExtMem s q) (hq3 : ∀ y, ExtMem s y → (c + mu * lam - q) * (y - q) ≤ mu * (extPen s y - extPen s q)) :
    |p - q| ≤ rowSlack A.toRounding mu c lam ∨ |c - q| ≤ |c - p| := by
  have big0 : 0 ≤ A.big := A.eta_nonneg.trans hA
  have slack := flShift_slack A.toRounding fused hmu.le c lam
  -- the ends of a set
  have upper : (∀ y, extPen s y = 0) → ExtMem s p → (∀ y, ExtMem s y → y ≤ p) → p ≤ A.big →
      ovShift A fused mu (fin c) (fin lam) = posInf → |p - q| ≤ rowSlack A.toRounding mu c lam ∨ |c - q| ≤ |c - p| := by
    intro hpen hpm hend hpb hsh
    rcases ovShift_posInf hA hsh with h | h
    · left
      refine (vi_nonexp hpm hq2 (mu := mu) (z := flShift A.toRounding fused mu c lam) (fun y hy => ?_) hq3).trans slack
      rw [hpen, hpen, sub_zero, mul_zero]
      exact mul_nonpos_of_nonneg_of_nonpos (by linarith) (by linarith [hend y hy])
    · right
      have h1 := hq3 p hpm
      rw [hpen, hpen, sub_zero, mul_zero] at h1
      rcases (hend q hq2).lt_or_eq with h2 | h2
      · have h3 : c + mu * lam - q ≤ 0 := by
          by_contra hc
          have := mul_pos (not_le.1 hc) (sub_pos.2 h2)
          linarith
        rw [abs_of_nonpos (by linarith), abs_of_nonpos (by linarith)]
        linarith
      · rw [h2]
  have lower : (∀ y, extPen s y = 0) → ExtMem s p → (∀ y, ExtMem s y → p ≤ y) → -A.big ≤ p →
      ovShift A fused mu (fin c) (fin lam) = negInf → |p - q| ≤ rowSlack A.toRounding mu c lam ∨ |c - q| ≤ |c - p| := by
    intro hpen hpm hend hpb hsh
    rcases ovShift_negInf hA hsh with h | h
    · left
      refine (vi_nonexp hpm hq2 (mu := mu) (z := flShift A.toRounding fused mu c lam) (fun y hy => ?_) hq3).trans slack
      rw [hpen, hpen, sub_zero, mul_zero]
      exact mul_nonpos_of_nonpos_of_nonneg (by linarith) (by linarith [hend y hy])
    · right
      have h1 := hq3 p hpm
      rw [hpen, hpen, sub_zero, mul_zero] at h1
      rcases (hend q hq2).lt_or_eq with h2 | h2
      · have h3 : 0 ≤ c + mu * lam - q := by
          by_contra hc
          have := mul_pos_of_neg_of_neg (not_le.1 hc) (sub_neg.2 h2)
          linarith
        rw [abs_of_nonneg (by linarith), abs_of_nonneg (by linarith)]
        linarith
      · rw [h2]
  cases hsh : ovShift A fused mu (fin c) (fin lam) with
  | nan => exact absurd hsh (ovShift_ne_nan A fused mu c lam)
  | fin w =>
    have hw := ovShift_fin hsh
    rw [hsh] at hp
    left
    have hard : s ≠ .l1 → s.ovProj A mu (fin w) = s.proj mu (fin w) := by
      intro h
      cases s <;> first | rfl | exact absurd rfl h
    by_cases hl : s = .l1
    · subst hl
      have h1 := flRow_slack A.toRounding (.l1, 0) trivial fused mu hmu.le c lam
      rw [← hw] at h1
      have e1 : p = LeafSet.flProjAt A.toRounding .l1 mu 0 w := by
        have h2 : fin (signK w) * stdMax (A.rd (fin (|w| - mu))) (fin 0) = fin p := by
          rw [← ext_sign_fin, ← ext_fin_sub]; exact hp
        obtain ⟨a, b, h3, h4, h5⟩ := ext_mul_fin h2
        cases h3
        have h6 : b = max (A.rnd (|w| - mu)) 0 := by
          cases hr : A.rd (fin (|w| - mu)) with
          | nan => cases rd_nan hr
          | posInf => rw [hr] at h4; cases h4
          | negInf =>
            rw [hr] at h4
            cases h4
            rcases rd_negInf hr with h7 | ⟨x, h7, h8⟩
            · cases h7
            · cases h7
              rw [max_eq_right (by linarith)]
          | fin y =>
            obtain ⟨x, h7, h8, -⟩ := rd_fin hr
            cases h7
            rw [hr] at h4
            unfold stdMax at h4
            by_cases h9 : y < 0
            · simp only [lt, h9, decide_true, if_true] at h4
              cases h4
              rw [← h8, max_eq_right h9.le]
            · simp only [lt, h9, decide_false] at h4
              cases h4
              rw [← h8, max_eq_left (not_lt.1 h9)]
        rw [h5, h6]
        rfl
      have e2 : q = LeafSet.projAt .l1 mu 0 (c + mu * lam) := by
        have h2 : fin (signK (c + mu * lam)) * stdMax (fin (|c + mu * lam| - mu)) (fin 0) = fin q := by
          rw [← ext_sign_fin, ← ext_fin_sub]; exact hq1
        unfold stdMax at h2
        by_cases h9 : |c + mu * lam| - mu < 0
        · simp only [lt, h9, decide_true, if_true] at h2
          cases h2
          simp only [LeafSet.projAt, max_eq_right h9.le]
        · simp only [lt, h9, decide_false] at h2
          cases h2
          simp only [LeafSet.projAt, max_eq_left (not_lt.1 h9)]
      rw [e1, e2]
      exact h1
    · rw [hard hl] at hp
      obtain ⟨p', h1, h2, h3⟩ := ext_proj_fin s (rowInRange_proper hs) mu hmu w
      rw [hp] at h1
      cases h1
      refine (vi_nonexp h2 hq2 h3 hq3).trans ?_
      rw [hw]
      exact slack
  | posInf =>
    rw [hsh] at hp
    cases s with
    | equality =>
      cases hp
      cases hq1
      left
      rw [sub_self, abs_zero]
      exact rowSlack_nonneg _ hmu.le c lam
    | negOrthant =>
      cases hp
      exact upper (fun _ => rfl) (le_refl (0 : K)) (fun y hy => hy) big0 hsh
    | box lo hi =>
      obtain ⟨⟨y, h1, h2⟩, h3, h4⟩ := hs
      cases hi with
      | nan => simp [le] at h2
      | negInf => simp [le] at h2
      | posInf => cases lo <;> simp [ExtSet.ovProj, stdMin, stdMax, lt] at hp
      | fin b =>
        have hpb : p = b := by
          cases lo with
          | nan => simp [le] at h1
          | posInf => simp [le] at h1
          | negInf => simpa [ExtSet.ovProj, stdMin, stdMax, lt] using hp.symm
          | fin a =>
            have : ¬ b < a := by
              have h5 : a ≤ y := by simpa [le] using h1
              have h6 : y ≤ b := by simpa [le] using h2
              exact not_lt.2 (h5.trans h6)
            simpa [ExtSet.ovProj, stdMin, stdMax, lt, this] using hp.symm
        subst hpb
        have hm : ExtMem (.box lo (fin p)) p := by
          refine ⟨?_, by simp [le]⟩
          have h6 : y ≤ p := by simpa [le] using h2
          cases lo with
          | fin a => simp only [le, decide_eq_true_eq] at h1 ⊢; exact h1.trans h6
          | nan => simp [le] at h1
          | posInf => simp [le] at h1
          | negInf => rfl
        exact upper (fun _ => rfl) hm (fun y hy => by simpa [le] using hy.2) ((le_abs_self p).trans h4) hsh
    | l1 => rw [(ovProj_l1_inf A mu).1] at hp; cases hp
  | negInf =>
    rw [hsh] at hp
    cases s with
    | equality =>
      cases hp
      cases hq1
      left
      rw [sub_self, abs_zero]
      exact rowSlack_nonneg _ hmu.le c lam
    | negOrthant => cases hp
    | box lo hi =>
      obtain ⟨⟨y, h1, h2⟩, h3, h4⟩ := hs
      cases lo with
      | nan => simp [le] at h1
      | posInf => simp [le] at h1
      | negInf => cases hi <;> simp [ExtSet.ovProj, stdMin, stdMax, lt] at hp
      | fin a =>
        have hpa : p = a := by
          cases hi with
          | nan => simp [le] at h2
          | negInf => simp [le] at h2
          | posInf => simpa [ExtSet.ovProj, stdMin, stdMax, lt] using hp.symm
          | fin b => simpa [ExtSet.ovProj, stdMin, stdMax, lt] using hp.symm
        subst hpa
        have hm : ExtMem (.box (fin p) hi) p := by
          refine ⟨by simp [le], ?_⟩
          have h6 : p ≤ y := by simpa [le] using h1
          cases hi with
          | fin b => simp only [le, decide_eq_true_eq] at h2 ⊢; exact h6.trans h2
          | nan => simp [le] at h2
          | posInf => rfl
          | negInf => simp [le] at h2
        exact lower (fun _ => rfl) hm (fun y hy => by simpa [le] using hy.1) (abs_le.1 h3).1 hsh
    | l1 => rw [(ovProj_l1_inf A mu).2] at hp; cases hp

/-- what a small computed entry of the primal residual means -/
theorem ovRow_certified {A : OvArith K} (hA : A.eta ≤ A.big) {s : ExtSet K} (hs : RowInRange A.big s) (fused : Bool) {mu : K} (hmu : 0 < mu)
    (c lam tol r : K) (hr : ovRowErr A s fused mu (fin c) (fin lam) = fin r) (ht : |r| < tol) :
    ExtRowCertified s mu ((tol + A.eta) / (1 - A.u) + rowSlack A.toRounding mu c lam) c lam := by
  obtain ⟨x, h1, h2, -⟩ := rd_fin hr
  obtain ⟨c', p, h3, h4, h5⟩ := ext_sub_fin h1
  cases h3
  obtain ⟨q, q1, q2, q3⟩ := ext_proj_fin s (rowInRange_proper hs) mu hmu (c + mu * lam)
  refine ⟨q, q2, ?_, q3⟩
  have hT : |c - p| < (tol + A.eta) / (1 - A.u) := by
    rw [lt_div_iff₀ (by linarith [A.u_lt_one])]
    have e := A.err (c - p)
    have e2 := abs_sub_abs_le_abs_sub (c - p) (A.rnd (c - p))
    rw [abs_sub_comm (c - p)] at e2
    rw [h2, h5] at ht
    linarith
  rcases ovProj_close hA hs fused hmu c lam p q h4 q1 q2 q3 with h | h
  · have := abs_add_le (c - p) (p - q)
    rw [sub_add_sub_cancel] at this
    linarith
  · have := rowSlack_nonneg A.toRounding hmu.le c lam
    linarith

/-! ### The loop -/

/-- what the check of the right-hand side guarantees -/
structure OvClean (A : OvArith K) (P : OvCtx X K H n m) (h : H) (x : X) (lam : Fin m → ExtScalar K) : Prop where
  top : ∀ j, ∃ a, ovLagGrad A P (P.rhsOrder h) x lam j = fin a
  lam : ∀ i, ∃ a, lam i = fin a

theorem ov_normal_fin {A : OvArith K} {s : ExtSet K} {mu : K} {z : ExtScalar K} {r : K} (h : s.ovNormal A mu z = fin r) :
    (∃ a, z = fin a) ∨ (s = .negOrthant ∧ z = negInf) := by
  cases s with
  | equality => exact .inl ⟨r, h⟩
  | box lo hi =>
    obtain ⟨x, h1, -⟩ := rd_fin h
    obtain ⟨y, -, h2, -⟩ := ext_sub_fin h1
    exact .inl ⟨y, h2⟩
  | l1 =>
    obtain ⟨x, h1, -⟩ := rd_fin h
    obtain ⟨y, -, h2, -⟩ := ext_sub_fin h1
    exact .inl ⟨y, h2⟩
  | negOrthant =>
    cases z with
    | fin a => exact .inl ⟨a, rfl⟩
    | negInf => exact .inr ⟨rfl, rfl⟩
    | nan => simp [ExtSet.ovNormal, stdMax, lt] at h
    | posInf => simp [ExtSet.ovNormal, stdMax, lt] at h

/-- a sum that is a number or `-∞` has a first term that is a number or `-∞` -/
theorem rd_add_left {A : OvArith K} {z w : ExtScalar K} {s : ExtSet K}
    (h : (∃ a, A.rd (z + w) = fin a) ∨ (s = .negOrthant ∧ A.rd (z + w) = negInf)) :
    (∃ a, z = fin a) ∨ (s = .negOrthant ∧ z = negInf) := by
  rcases h with ⟨a, h⟩ | ⟨hs, h⟩
  · obtain ⟨x, h1, -⟩ := rd_fin h
    obtain ⟨y, -, h2, -⟩ := ext_add_fin h1
    exact .inl ⟨y, h2⟩
  · cases z with
    | fin a => exact .inl ⟨a, rfl⟩
    | negInf => exact .inr ⟨hs, rfl⟩
    | nan => cases w <;> cases h
    | posInf => cases w <;> cases h

theorem rd_sub_left {A : OvArith K} {z w : ExtScalar K} {s : ExtSet K}
    (h : (∃ a, A.rd (z - w) = fin a) ∨ (s = .negOrthant ∧ A.rd (z - w) = negInf)) :
    (∃ a, z = fin a) ∨ (s = .negOrthant ∧ z = negInf) := rd_add_left (w := -w) h

theorem ovEval_clean {A : OvArith K} {P : OvCtx X K H n m} {S : Settings K} {h : H} {mu rho : K} {target x : X}
    {lam lamPrev : Fin m → ExtScalar K} {ev : ExtEval K n m} (hev : ovEval A P S h mu rho target x lam lamPrev = some ev)
    (hok : ev.rhsOk = true) :
    OvClean A P h x lam ∧ ∃ v c, P.eval x = some (v, c) ∧ ev.value = v ∧
      (∀ i, (∃ a, c i = fin a) ∨ (P.sets i = .negOrthant ∧ c i = negInf)) ∧ ev.prim = ovPrim A P h mu c lam ∧
      ev.dual = P.norm (List.ofFn (ovLagGrad A P (P.order h) x lam)) := by
  unfold ovEval at hev
  obtain ⟨⟨v, c⟩, he, rfl⟩ := Option.map_eq_some_iff.1 hev
  have hfin := checkValue_false (l := _) (by simpa [ExtEval.rhsOk] using hok)
  have htop : ∀ j, ∃ a, ovLagGrad A P (P.rhsOrder h) x lam j = fin a := by
    intro j
    obtain ⟨a, ha⟩ := hfin _ (List.mem_append_left _ (List.mem_ofFn.2 ⟨j, rfl⟩))
    split_ifs at ha with hr
    · obtain ⟨y, h1, -⟩ := rd_fin ha
      obtain ⟨w, -, h2, -⟩ := ext_add_fin h1
      exact ⟨w, h2⟩
    · exact ⟨a, ha⟩
  have hbot := fun i => hfin _ (List.mem_append_right _ (List.mem_ofFn.2 ⟨i, rfl⟩))
  have hlam : ∀ i, ∃ a, lam i = fin a := fun i => by
    obtain ⟨a, ha⟩ := hbot i
    cases hk : S.kkt <;> rw [hk] at ha <;> simp only at ha <;>
    · obtain ⟨y0, h0, -⟩ := rd_fin ha
      obtain ⟨-, y, -, h1, -⟩ := ext_mul_fin h0
      obtain ⟨y1, h1', -⟩ := rd_fin h1
      obtain ⟨-, w, -, h2, -⟩ := ext_sub_fin h1'
      exact ⟨w, h2⟩
  refine ⟨⟨htop, hlam⟩, v, c, he, rfl, fun i => ?_, rfl, rfl⟩
  have hshift : (∃ a, ovShift A (P.fusedPrev h i) mu (c i) (lamPrev i) = fin a) ∨
      (P.sets i = .negOrthant ∧ ovShift A (P.fusedPrev h i) mu (c i) (lamPrev i) = negInf) := by
    obtain ⟨a, ha⟩ := hbot i
    cases hk : S.kkt <;> rw [hk] at ha <;> simp only at ha
    · obtain ⟨y0, h0, -⟩ := rd_fin ha
      obtain ⟨-, y, -, h1, -⟩ := ext_mul_fin h0
      obtain ⟨y1, h1', -⟩ := rd_fin h1
      obtain ⟨w, -, h2, -⟩ := ext_sub_fin h1'
      obtain ⟨y2, h2', -⟩ := rd_fin h2
      obtain ⟨-, r, -, h3, -⟩ := ext_mul_fin h2'
      exact ov_normal_fin h3
    · obtain ⟨y0, h0, -⟩ := rd_fin ha
      obtain ⟨-, y, -, h1, -⟩ := ext_mul_fin h0
      obtain ⟨y1, h1', -⟩ := rd_fin h1
      obtain ⟨w, -, h2, -⟩ := ext_sub_fin h1'
      obtain ⟨y2, h2', -⟩ := rd_fin h2
      obtain ⟨r, -, h3, -⟩ := ext_mul_fin h2'
      have h4 := ov_normal_fin h3
      unfold ovShiftPdal at h4
      split_ifs at h4
      · exact rd_sub_left h4
      · exact rd_sub_left h4
  unfold ovShift at hshift
  split_ifs at hshift
  · exact rd_add_left hshift
  · exact rd_add_left hshift

/-- the inner loop ended by its test at the point it returns; the operations were ordered as in the state `h` of the platform -/
def OvTested (A : OvArith K) (P : OvCtx X K H n m) (mu : K) (st : OvSt X K H m) : Prop :=
  ∃ h, OvClean A P h st.xOpt st.lamsOpt ∧ ∃ v c, P.eval st.xOpt = some (v, c) ∧ st.value = v ∧
    (∀ i, (∃ a, c i = fin a) ∨ (P.sets i = .negOrthant ∧ c i = negInf)) ∧ st.prim = ovPrim A P h mu c st.lamsOpt ∧
    st.dual = P.norm (List.ofFn (ovLagGrad A P (P.order h) st.xOpt st.lamsOpt))

theorem ovInner_spec (A : OvArith K) (P : OvCtx X K H n m) (S : Settings K) : ∀ (st st' : OvSt X K H m), ovInner A P S st = some st' →
    (st.converged ≠ .success → st'.converged ≠ .success) ∧ st'.mu = st.mu ∧ st'.resMu = st.resMu ∧
      (OvTested A P st.mu st' ∨ le (stdMax st'.prim st'.dual) (fin S.targetTol) = false) := by
  intro st
  induction hk : S.maxIters - st.numIters using Nat.strong_induction_on generalizing st with
  | _ k ih =>
    intro st' h
    rw [ovInner] at h
    cases hev : ovEval A P S st.hidden st.mu st.rho st.target st.xOpt st.lamsOpt st.lamsPrev with
    | none => rw [hev] at h; simp at h
    | some ev =>
      rw [hev] at h
      simp only at h
      by_cases h1 : ev.rhsOk = false ∨ P.matrixOk st.hidden = false
      · rw [if_pos h1] at h; simp at h
      rw [if_neg h1] at h
      have hok : ev.rhsOk = true := by
        cases e : ev.rhsOk
        · exact absurd (Or.inl e) h1
        · rfl
      obtain ⟨hc, v, c, he, hv, hcs, hpr, hdu⟩ := ovEval_clean hev hok
      by_cases h2 : le ev.innerCrit (fin st.tols.1) = true ∨ le (stdMax ev.prim ev.dual) (fin S.targetTol) = true
      · rw [if_pos h2] at h
        cases h
        exact ⟨id, rfl, rfl, .inl ⟨st.hidden, hc, v, c, he, hv, hcs, hpr, hdu⟩⟩
      rw [if_neg h2] at h
      have hnot : le (stdMax ev.prim ev.dual) (fin S.targetTol) = false := by
        cases e : le (stdMax ev.prim ev.dual) (fin S.targetTol)
        · rfl
        · exact absurd (Or.inr e) h2
      cases hs : P.step ⟨(ovAfterEval P st ev).xOpt, (ovAfterEval P st ev).lamsOpt, (ovAfterEval P st ev).lamsPrev,
          (ovAfterEval P st ev).target, (ovAfterEval P st ev).mu, (ovAfterEval P st ev).rho, (ovAfterEval P st ev).hidden⟩ with
      | none => rw [hs] at h; simp at h
      | some o =>
        rw [hs] at h
        simp only at h
        by_cases h3 : checkValue (List.ofFn o.lam) = true ∨ checkScalar o.merit = true
        · rw [if_pos h3] at h; simp at h
        rw [if_neg h3] at h
        by_cases h4 : st.numIters + 1 ≥ S.maxIters
        · rw [if_pos h4] at h
          cases h
          exact ⟨fun _ => by simp, rfl, rfl, .inr hnot⟩
        · rw [if_neg h4] at h
          have key := fun hx => ih (S.maxIters - (st.numIters + 1)) (by omega) _ hx st' h
          exact key rfl

theorem ovAfterInner_same (P : OvCtx X K H n m) (S : Settings K) (st : OvSt X K H m) : (ovAfterInner P S st).xOpt = st.xOpt ∧
    (ovAfterInner P S st).prim = st.prim ∧ (ovAfterInner P S st).dual = st.dual ∧ (ovAfterInner P S st).value = st.value ∧
    (ovAfterInner P S st).resMu = st.resMu ∧ (S.mode = .newton → (ovAfterInner P S st).lamsOpt = st.lamsOpt) ∧
    (ovAfterInner P S st).converged = st.converged := by
  unfold ovAfterInner
  simp only
  split_ifs
  · refine ⟨rfl, rfl, rfl, rfl, rfl, fun hm => ?_, rfl⟩
    simp [hm]
  · exact ⟨rfl, rfl, rfl, rfl, rfl, fun _ => rfl, rfl⟩

theorem ovAfterInner_mu (P : OvCtx X K H n m) (S : Settings K) (st : OvSt X K H m) (hmu : ∀ t, 0 < t → 0 < P.nextMu t) (h : 0 < st.mu) :
    0 < (ovAfterInner P S st).mu := by
  unfold ovAfterInner
  simp only
  split_ifs
  · exact h
  · exact hmu _ h

theorem ovOuter_spec (A : OvArith K) (P : OvCtx X K H n m) (S : Settings K) (hmu : ∀ t, 0 < t → 0 < P.nextMu t) :
    ∀ (st st' : OvSt X K H m), st.converged ≠ .success → 0 < st.mu → ovOuter A P S st = some st' → st'.converged = .success →
    ∃ s, OvTested A P s.resMu s ∧ st'.xOpt = s.xOpt ∧ st'.value = s.value ∧ st'.resMu = s.resMu ∧ (S.mode = .newton → st'.lamsOpt = s.lamsOpt) ∧
      lt (stdMax s.prim s.dual) (fin S.targetTol) = true ∧ 0 < s.resMu := by
  intro st
  induction hk : S.maxAlIters - st.alIters using Nat.strong_induction_on generalizing st with
  | _ k ih =>
    intro st' hc hpos h hs
    rw [ovOuter] at h
    by_cases h0 : st.numIters < S.maxIters ∧ st.alIters < S.maxAlIters
    · rw [if_pos h0] at h
      cases hi : ovInner A P S { st with resMu := st.mu, hidden := P.enterInner st.hidden } with
      | none => rw [hi] at h; simp at h
      | some s =>
        rw [hi] at h
        simp only at h
        obtain ⟨k1, k2, k3, k4⟩ := ovInner_spec A P S _ s hi
        have hsmu : s.mu = st.mu := k2
        have hsres : s.resMu = st.mu := k3
        obtain ⟨a1, a2, a3, a4, a5, a6, a7⟩ := ovAfterInner_same P S s
        by_cases h2 : lt (stdMax (ovAfterInner P S s).prim (ovAfterInner P S s).dual) (fin S.targetTol) = true
        · rw [if_pos h2] at h
          cases h
          rw [a2, a3] at h2
          refine ⟨s, ?_, a1, a4, a5, a6, h2, by rw [hsres]; exact hpos⟩
          rcases k4 with k4 | k4
          · rw [hsres]; exact k4
          · rw [le_of_lt_ext h2] at k4; cases k4
        · rw [if_neg h2] at h
          have key := fun hx hy hz => ih (S.maxAlIters - (st.alIters + 1)) (by omega) _ hx st' hy hz h hs
          refine key rfl ?_ ?_
          · show (ovAfterInner P S s).converged ≠ .success
            rw [a7]
            exact k1 hc
          · exact ovAfterInner_mu P S s hmu (by rw [hsmu]; exact hpos)
    · rw [if_neg h0] at h
      cases h
      exact absurd hs hc

theorem ext_le_trans {K : Type} [LinearOrder K] {x y z : ExtScalar K} (h1 : le x y = true) (h2 : le y z = true) : le x z = true := by
  cases y with
  | nan => cases x <;> cases h1
  | posInf =>
    cases z with
    | posInf => exact h1
    | nan => cases h2
    | negInf => cases h2
    | fin _ => cases h2
  | negInf =>
    cases x with
    | negInf => exact h2
    | nan => cases h1
    | posInf => cases h1
    | fin _ => cases h1
  | fin b =>
    cases x with
    | nan => cases h1
    | posInf => cases h1
    | negInf => cases z <;> first | rfl | cases h2
    | fin a =>
      cases z with
      | nan => cases h2
      | negInf => cases h2
      | posInf => rfl
      | fin c => exact decide_eq_true ((of_decide_eq_true h1).trans (of_decide_eq_true h2))

theorem ext_le_of_not_lt {K : Type} [Zero K] [LinearOrder K] {r e : ExtScalar K} (hr : (∃ a, 0 ≤ a ∧ r = fin a) ∨ r = posInf)
    (he : (∃ a, 0 ≤ a ∧ e = fin a) ∨ e = posInf) (h : ¬ lt r e = true) : le e r = true := by
  rcases hr with ⟨a, -, rfl⟩ | rfl
  · rcases he with ⟨b, -, rfl⟩ | rfl
    · exact decide_eq_true (not_lt.1 fun hl => h (decide_eq_true hl))
    · exact absurd rfl h
  · rcases he with ⟨b, -, rfl⟩ | rfl <;> rfl

end ProxNLP
