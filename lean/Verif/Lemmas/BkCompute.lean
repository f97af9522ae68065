import Verif.Lemmas.BkSing
import Verif.Lemmas.Signature
import Verif.Spec.BlockKind

/-! The result of `compute` on a Bunch-Kaufman object, its signature vector and the inertia of the matrix. -/

set_option linter.unusedSectionVars false
namespace ProxNLP

open Spec
open Equiv (swap)
open Relation (ReflTransGen)

variable {K : Type} [Field K] [LinearOrder K] [IsStrictOrderedRing K]

theorem symRow_lower (A : ℕ → ℕ → K) : symRow (fun i c => if c ≤ i then A i c else 0) = matCoeff A := by
  funext i j
  simp only [symRow, matCoeff]
  split_ifs <;> first | rfl | omega

theorem chain_notSecond {alpha : K} {n : ℕ} {piv : ℕ → ℤ} {M : ℕ → ℕ → K} {x y} (h : ReflTransGen (BkOne alpha n piv M) x y) (hx : notSecond piv x.1) :
    notSecond piv y.1 := by
  induction h with
  | refl => exact hx
  | tail _ h1 ih =>
    cases h1 with
    | one k kp S T hk hkp hpiv => exact notSecond_one ih (by omega)
    | two k kp S T hk hkp hpiv hpiv' => exact notSecond_two ih (by omega)

theorem bkCompute_spec (alpha : K) (h0 : 0 < alpha) (h1 : alpha < 1) (o : BkObj K) (n : ℕ) (A : ℕ → ℕ → K) (bs : ℕ) (hbs : 2 ≤ bs) :
    ∃ r, BkObj.compute alpha o n A bs = some r ∧ r.n = n ∧
      ((r.info = some true ∧ ∃ M T, ReflTransGen (BkOne alpha n r.piv M) (0, matCoeff A) (n, T) ∧
          (∀ c < n, ∀ i, r.mat i c = convMat n r.piv M i c) ∧ ∀ c < n, r.subdiag c = if twoAt r.piv c then M (c + 1) c else 0) ∨
        (r.info = some false ∧ ∃ piv M k T, k < n ∧ ReflTransGen (BkOne alpha n piv M) (0, matCoeff A) (k, T) ∧
          (∀ i, k ≤ i → i < n → T i k = 0) ∧
          (n ≤ bs → (∀ c, c < n → piv c = r.piv c) ∧ r.mat k k = 0 ∧ r.piv k = 0))) := by
  have hS : SymOn 0 n (matCoeff A) := by
    intro i j _ _ _ _
    rw [← symRow_lower]
    exact symRow_symm _ i j
  have hspec := bkBlocks_spec alpha h0 h1 n (if n ≤ bs then 0 else bs) (by split_ifs <;> omega) (matCoeff A) n 0 (fun _ _ => 0)
    { a := fun i c => if c ≤ i then A i c else 0, piv := fun _ => 0 } (by omega) (Nat.zero_le _) (fun _ _ => rfl) (matCoeff A) .refl
    (by rw [symRow_lower]; exact fun _ _ _ _ _ _ => rfl)
  unfold BkObj.compute
  simp only
  generalize bkBlocks alpha n (if n ≤ bs then 0 else bs) n 0 (fun _ _ => 0)
    { a := fun i c => if c ≤ i then A i c else 0, piv := fun _ => 0 } = z at hspec ⊢
  match z, hspec with
  | some (true, s), ⟨T, hc⟩ =>
    obtain ⟨c1, c2⟩ := bkConvert_spec (PivPath.of_chain hc rfl) s.a fun _ => 0
    exact ⟨_, rfl, rfl, .inl ⟨rfl, s.a, T, hc, c1, c2⟩⟩
  | some (false, s), ⟨piv, M, k, T, e1, e2, e3, e4⟩ =>
    refine ⟨_, rfl, rfl, .inr ⟨rfl, piv, M, k, T, e1, e2, e3, fun hn => ?_⟩⟩
    obtain ⟨a1, a2, a3, a4⟩ := e4 (if_pos hn) rfl
    refine ⟨a1, ?_, a4 k le_rfl⟩
    have := a3 k k le_rfl e1 le_rfl e1
    rw [e3 k le_rfl e1] at this
    simpa [symRow] using this.symm

/-! ### the signature -/

theorem forPivots_write {α : Type} (n : ℕ) (piv : ℕ → ℤ) (one fst snd : ℕ → α) (k : ℕ) (s : ℕ → α) (hk : notSecond piv k) :
    let r := forPivots n piv (fun k _ s i => if i = k then fst k else if i = k + 1 then snd k else s i)
      (fun k _ s i => if i = k then one k else s i) k s
    (∀ c < k, r c = s c) ∧ ∀ c, k ≤ c → c < n → r c = byBlock piv one fst snd c := by
  induction hm : n - k using Nat.strong_induction_on generalizing k s with
  | _ m ih =>
    rw [forPivots]
    by_cases hkn : k < n
    · rw [if_pos hkn]
      by_cases hp : piv k < 0
      · rw [if_pos hp]
        have ht : twoAt piv k = true := by rw [twoAt_of_notSecond hk]; simpa using hp
        obtain ⟨i1, i2⟩ := ih (n - (k + 2)) (by omega) (k + 2) (fun i => if i = k then fst k else if i = k + 1 then snd k else s i)
          (notSecond_two hk hp) rfl
        refine ⟨fun c hc => ?_, fun c hc hcn => ?_⟩
        · rw [i1 c (by omega), if_neg (by omega), if_neg (by omega)]
        · by_cases e : c = k
          · subst e
            rw [i1 c (by omega), if_pos rfl, (byBlock_two ht).1]
          · by_cases e1 : c = k + 1
            · subst e1
              rw [i1 (k + 1) (by omega), if_neg (by omega), if_pos rfl, (byBlock_two ht).2]
            · exact i2 c (by omega) hcn
      · rw [if_neg hp]
        have ht : twoAt piv k = false := by rw [twoAt_of_notSecond hk]; simpa using hp
        obtain ⟨i1, i2⟩ := ih (n - (k + 1)) (by omega) (k + 1) (fun i => if i = k then one k else s i)
          (notSecond_one hk (by omega)) rfl
        refine ⟨fun c hc => ?_, fun c hc hcn => ?_⟩
        · rw [i1 c (by omega), if_neg (by omega)]
        · by_cases e : c = k
          · subst e
            rw [i1 c (by omega), if_pos rfl, byBlock_one ht hk]
          · exact i2 c (by omega) hcn
    · rw [if_neg hkn]
      exact ⟨fun _ _ => rfl, fun c h1 h2 => by omega⟩

/-- determinant of the stored (inverse) 2x2 block at `c` -/
def bkDet (o : BkObj K) (c : ℕ) : K := o.mat c c * o.mat (c + 1) (c + 1) - o.subdiag c * o.subdiag c

theorem bkSignatureFn_eq (eps : K) (o : BkObj K) (c : ℕ) (hc : c < o.n) :
    bkSignatureFn eps o c = byBlock o.piv (fun c => cwiseSign (o.mat c c))
      (fun c => if |bkDet o c| ≤ eps then 0 else if 0 < bkDet o c then cwiseSign (o.mat c c + o.mat (c + 1) (c + 1)) else -1)
      (fun c => if |bkDet o c| ≤ eps then cwiseSign (o.mat c c + o.mat (c + 1) (c + 1))
        else if 0 < bkDet o c then cwiseSign (o.mat c c + o.mat (c + 1) (c + 1)) else 1) c := by
  rw [← (forPivots_write o.n o.piv _ _ _ 0 (fun _ => 0) trivial).2 c (Nat.zero_le _) hc]
  have e : (fun k (_ : ℕ) (s : ℕ → ℤ) =>
      let ak := o.mat k k
      let akp1 := o.mat (k + 1) (k + 1)
      let akp1k := o.subdiag k
      let tr := ak + akp1
      let det := ak * akp1 - akp1k * akp1k
      if |det| ≤ eps then fun i => if i = k then 0 else if i = k + 1 then cwiseSign tr else s i
      else if 0 < det then fun i => if i = k then cwiseSign tr else if i = k + 1 then cwiseSign tr else s i
      else fun i => if i = k then -1 else if i = k + 1 then 1 else s i) = fun k _ s i =>
        if i = k then
          if |bkDet o k| ≤ eps then 0 else if 0 < bkDet o k then cwiseSign (o.mat k k + o.mat (k + 1) (k + 1)) else -1
        else
          if i = k + 1 then
            if |bkDet o k| ≤ eps then cwiseSign (o.mat k k + o.mat (k + 1) (k + 1))
            else if 0 < bkDet o k then cwiseSign (o.mat k k + o.mat (k + 1) (k + 1)) else 1
          else s i := by
    funext k _ s i
    have hd : o.mat k k * o.mat (k + 1) (k + 1) - o.subdiag k * o.subdiag k = bkDet o k := rfl
    simp only [hd]
    by_cases c1 : |bkDet o k| ≤ eps
    · simp only [if_pos c1]
    · by_cases c2 : 0 < bkDet o k
      · simp only [if_neg c1, if_pos c2]
      · simp only [if_neg c1, if_neg c2]
  unfold bkSignatureFn
  rw [e]

/-! ### the inertia -/

theorem hasInertia_of_bk {alpha : K} {n : ℕ} {piv : ℕ → ℤ} {M : ℕ → ℕ → K} {S T : ℕ → ℕ → K} (h : ReflTransGen (BkOne alpha n piv M) (0, S) (n, T))
    (hs : SymOn 0 n S) : ∃ e : ℕ → K, HasInertia (toMat n S) (Fintype.card {k : Fin n // 0 < e k})
        (Fintype.card {k : Fin n // e k < 0}) (Fintype.card {k : Fin n // e k = 0}) ∧
      (∀ c < n, twoAt piv c = true → e c < 0 ∧ 0 < e (c + 1) ∧ M c c * M (c + 1) (c + 1) - M (c + 1) c * M (c + 1) c < 0) ∧
      (∀ c < n, twoAt piv c = false → notSecond piv c → e c ≠ 0 ∧ M c c = 1 / e c) := by
  have hp := PivPath.of_chain h rfl
  obtain ⟨D, hD, hfac⟩ := bk_factorises h rfl hs trivial
  obtain ⟨P, e, hsq, htwo, hone⟩ := blockDiag_squares hp hD
  simp only at hp hfac
  set L := unitLow (convMat n piv M) with hL
  set p := travPerm n piv 0
  have hpl : ∀ i < n, p i < n := fun i hi => ((travPerm_fix hp).2 i (Nat.zero_le _) hi).2
  have hpi : ∀ i < n, p⁻¹ i < n := fun i hi => travPerm_inv_mem hp i hi
  -- the permutation on `Fin n`
  let σ : Equiv.Perm (Fin n) := { toFun := fun i => ⟨p i, hpl i i.2⟩, invFun := fun i => ⟨p⁻¹ i, hpi i i.2⟩,
                                  left_inv := fun i => by simp, right_inv := fun i => by simp }
  let ext : (Fin n → K) → ℕ → K := fun w i => if hi : i < n then w ⟨i, hi⟩ else 0
  let B : (Fin n → K) →ₗ[K] (Fin n → K) :=
    { toFun := fun w c => blockForm piv P (ext w) c
      map_add' := fun x y => by
        funext c
        simp only [Pi.add_apply, blockForm, byBlock, ext]
        split_ifs <;> ring
      map_smul' := fun a x => by
        funext c
        simp only [Pi.smul_apply, smul_eq_mul, RingHom.id_apply, blockForm, byBlock, ext]
        split_ifs <;> ring }
  have hBinj : Function.Injective B := by
    rw [← LinearMap.ker_eq_bot, LinearMap.ker_eq_bot']
    intro w hw
    have hz : ∀ c < n, blockForm piv P (ext w) c = 0 := fun c hc => congrFun hw ⟨c, hc⟩
    have hpair : ∀ c < n, twoAt piv c = true → ext w c = 0 ∧ ext w (c + 1) = 0 := by
      intro c hc ht
      have hc1 : c + 1 < n := twoAt_lt hp c hc ht
      have b1 := hz c hc
      have b2 := hz (c + 1) hc1
      rw [(blockForm_two ht).1] at b1
      rw [(blockForm_two ht).2] at b2
      have hdet := (htwo c hc ht).1
      constructor
      · refine (mul_eq_zero.1 ?_).resolve_left hdet
        linear_combination (P c).2.2.2 * b1 - (P c).2.1 * b2
      · refine (mul_eq_zero.1 ?_).resolve_left hdet
        linear_combination (P c).1 * b2 - (P c).2.2.1 * b1
    funext c
    have hx : ext w c = 0 := by
      rcases hp.cases trivial c (Nat.zero_le _) c.2 with ⟨t1, t2⟩ | ⟨t1, -⟩ | ⟨c0, t1, -, t2⟩
      · rw [← blockForm_one (P := P) (w := ext w) t1 t2]; exact hz c c.2
      · exact (hpair c c.2 t1).1
      · rw [t1]; exact (hpair c0 (by have := c.2; omega) t2).2
    simpa [ext] using hx
  have hLinj : Function.Injective (transposeMap n L) := by
    refine transposeMap_inj n L (fun i _ => by simp [hL, unitLow]) fun i _ j _ hij => ?_
    simp [hL, unitLow, hij.ne, hij.not_gt]
  have hPinj : Function.Injective (LinearMap.funLeft K K σ) := LinearMap.funLeft_injective_of_surjective K K _ σ.surjective
  refine ⟨e, hasInertia_of_squares _ (LinearEquiv.ofInjectiveEndo (B ∘ₗ transposeMap n L ∘ₗ LinearMap.funLeft K K σ)
    (hBinj.comp (hLinj.comp hPinj))) (fun k => e k) fun v => ?_, ?_, ?_⟩
  · -- the form as squares
    set w : Fin n → K := transposeMap n L (LinearMap.funLeft K K σ v) with hw
    have e1 : quad (toMat n S) v = ∑ i : Fin n, ∑ j : Fin n, v (σ i) * (S (p i) (p j) * v (σ j)) := by
      simp only [quad, toMat, Matrix.of_apply]
      rw [← Equiv.sum_comp σ]
      refine Finset.sum_congr rfl fun i _ => ?_
      rw [← Equiv.sum_comp σ, Finset.mul_sum]
      rfl
    have e2 : ∑ i : Fin n, ∑ j : Fin n, v (σ i) * (S (p i) (p j) * v (σ j)) =
        ∑ c : Fin n, ∑ c' : Fin n, D c c' * w c * w c' := by
      have hS : ∀ i j : Fin n, S (p i) (p j) = ∑ c : Fin n, ∑ c' : Fin n, L i c * D c c' * L j c' := by
        intro i j
        rw [hfac i j (Nat.zero_le _) i.2 (Nat.zero_le _) j.2, Nat.Ico_zero_eq_range, Finset.sum_range]
        exact Finset.sum_congr rfl fun c _ => by rw [Finset.sum_range]
      have hwc : ∀ c : Fin n, w c = ∑ i : Fin n, L i c * v (σ i) := fun c => rfl
      calc ∑ i : Fin n, ∑ j : Fin n, v (σ i) * (S (p i) (p j) * v (σ j))
          = ∑ i : Fin n, ∑ j : Fin n, ∑ c : Fin n, ∑ c' : Fin n, D c c' * (L i c * v (σ i)) * (L j c' * v (σ j)) := by
            refine Finset.sum_congr rfl fun i _ => Finset.sum_congr rfl fun j _ => ?_
            rw [hS, Finset.sum_mul, Finset.mul_sum]
            refine Finset.sum_congr rfl fun c _ => ?_
            rw [Finset.sum_mul, Finset.mul_sum]
            exact Finset.sum_congr rfl fun c' _ => by ring
        _ = ∑ c : Fin n, ∑ c' : Fin n, ∑ i : Fin n, ∑ j : Fin n, D c c' * (L i c * v (σ i)) * (L j c' * v (σ j)) := by
            rw [Finset.sum_congr rfl fun i _ => Finset.sum_comm]
            rw [Finset.sum_comm]
            refine Finset.sum_congr rfl fun c _ => ?_
            rw [Finset.sum_congr rfl fun i _ => Finset.sum_comm]
            rw [Finset.sum_comm]
        _ = _ := by
            refine Finset.sum_congr rfl fun c _ => Finset.sum_congr rfl fun c' _ => ?_
            rw [hwc c, hwc c', mul_assoc, Finset.sum_mul_sum, Finset.mul_sum]
            refine Finset.sum_congr rfl fun i _ => ?_
            rw [Finset.mul_sum]
            exact Finset.sum_congr rfl fun j _ => by ring
    have e3 : ∑ c : Fin n, ∑ c' : Fin n, D c c' * w c * w c' =
        ∑ c ∈ Finset.Ico 0 n, ∑ c' ∈ Finset.Ico 0 n, D c c' * ext w c * ext w c' := by
      rw [Nat.Ico_zero_eq_range, Finset.sum_range]
      refine Finset.sum_congr rfl fun c _ => ?_
      rw [Finset.sum_range]
      refine Finset.sum_congr rfl fun c' _ => ?_
      simp [ext]
    rw [e1, e2, e3, hsq (ext w), Nat.Ico_zero_eq_range, Finset.sum_range]
    rfl
  · intro c hc ht
    have hc1 := twoAt_lt hp c hc ht
    obtain ⟨-, a2, a3⟩ := htwo c hc ht
    obtain ⟨d1, d2, d3, d4⟩ := hD.double c (Nat.zero_le _) hc1 ht
    refine ⟨a2, a3, ?_⟩
    rw [d2, d3, d4]
    set Δ := D c c * D (c + 1) (c + 1) - D (c + 1) c * D (c + 1) c with hΔ
    have : D (c + 1) (c + 1) / Δ * (D c c / Δ) - -D (c + 1) c / Δ * (-D (c + 1) c / Δ) = 1 / Δ := by
      have hne := d1.ne
      field_simp
      rw [hΔ]
      ring
    rw [this]
    exact one_div_neg.2 d1
  · intro c hc ht hns
    obtain ⟨d1, d2⟩ := hD.single c (Nat.zero_le _) hc ht hns
    rw [hone c hc ht hns]
    exact ⟨d1, d2⟩

end ProxNLP
