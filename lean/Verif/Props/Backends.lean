import Verif.Model.Backends
import Verif.Props.Step
import Verif.Props.BunchKaufman
import Verif.Props.BlockLdlt
import Verif.Props.ProxsuiteLdlt
import Mathlib.Tactic.FinCases
import Mathlib.LinearAlgebra.Matrix.Notation

/-!
Property theorems for C79: the linear solvers of the library are exact on the KKT matrices the solver hands them, so that the
statements about the step (C70, C71) hold for them.
-/

set_option linter.unusedSectionVars false
namespace ProxNLP

open Spec

variable {X K : Type} {n m : ℕ} [Field K] [LinearOrder K] [IsStrictOrderedRing K]

theorem toMat_flatEntries (A : Matrix (Fin n ⊕ Fin m) (Fin n ⊕ Fin m) K) : toMat (n + m) (flatEntries A) = flatKkt A := by
  ext i j
  simp [toMat, flatEntries, flatKkt]

theorem toMat_matCoeff_flat (A : Matrix (Fin n ⊕ Fin m) (Fin n ⊕ Fin m) K) (h : A.IsSymm) :
    toMat (n + m) (matCoeff (flatEntries A)) = flatKkt A := by
  rw [← toMat_flatEntries]
  ext i j
  simp only [toMat, Matrix.of_apply, matCoeff]
  split_ifs with hij
  · rfl
  · simp only [flatEntries, Fin.is_lt, and_self, dif_pos]
    exact h.apply _ _

/-- a symmetric form without zero eigenvalue has no kernel -/
theorem HasInertia.det_ne_zero {ι : Type} [Fintype ι] [DecidableEq ι] {A : Matrix ι ι K} (hs : A.IsSymm) {p q : ℕ}
    (h : HasInertia A p q 0) : A.det ≠ 0 := by
  intro hdet
  obtain ⟨v, hv, hv0⟩ := Matrix.exists_mulVec_eq_zero_iff.2 hdet
  obtain ⟨⟨⟨V, hV, hVp⟩, -⟩, ⟨⟨W, hW, hWn⟩, -⟩, hsum⟩ := h
  have hq : ∀ w : ι → K, ∀ c : K, quad A (w + c • v) = quad A w := by
    intro w c
    have e : ∀ u, quad A u = u ⬝ᵥ A.mulVec u := fun u => rfl
    rw [e, e, Matrix.mulVec_add, Matrix.mulVec_smul, hv0, smul_zero, add_zero, add_dotProduct, smul_dotProduct]
    have : v ⬝ᵥ A.mulVec w = 0 := by
      rw [Matrix.dotProduct_mulVec, ← Matrix.mulVec_transpose, hs.eq, hv0, zero_dotProduct]
    rw [this, smul_zero, add_zero]
  have hqv : quad A v = 0 := by
    have := hq 0 1
    simpa [quad] using this
  have hvW : v ∉ W := fun hm => by have := hWn v hm hv; rw [hqv] at this; exact lt_irrefl _ this
  have hlt : W < W ⊔ Submodule.span K {v} := by
    refine lt_of_le_of_ne le_sup_left fun he => hvW ?_
    rw [he]
    exact Submodule.mem_sup_right (Submodule.mem_span_singleton_self v)
  have hdim := Submodule.finrank_lt_finrank_of_lt hlt
  have hdis : Disjoint V (W ⊔ Submodule.span K {v}) := by
    rw [Submodule.disjoint_def]
    intro x hx hx'
    by_contra hne
    obtain ⟨w, hw, y, hy, rfl⟩ := Submodule.mem_sup.1 hx'
    obtain ⟨c, rfl⟩ := Submodule.mem_span_singleton.1 hy
    have h1 := hVp _ hx hne
    rw [hq] at h1
    by_cases hw0 : w = 0
    · subst hw0; simp [quad] at h1
    · exact absurd (hWn w hw hw0) (not_lt.2 h1.le)
  have := Submodule.finrank_add_finrank_le_of_disjoint hdis
  rw [Module.finrank_fintype_fun_eq_card] at this
  omega

/-- **C79** for Bunch-Kaufman: on every symmetric matrix with `n` positive and `m` negative eigenvalues and no zero one, if no 2x2
pivot falls under the threshold (no zero reported), the signature passes the inertia check and the solve is exact. -/
theorem C79_bk_threshold (alpha eps : K) (h0 : 0 < alpha) (h1 : alpha < 1) (o : BkObj K)
    (A : Matrix (Fin n ⊕ Fin m) (Fin n ⊕ Fin m) K) (hs : A.IsSymm) (hI : HasInertia A n m 0)
    (hz : 0 ∉ (bkBackend (n := n) (m := m) alpha eps o).sig A) : ExactAt (bkBackend alpha eps o) A := by
  obtain ⟨r, hr, hn, -⟩ := C58_compute_total alpha h0 h1 o (n + m) (flatEntries A) 32 (by omega)
  have hmat := toMat_matCoeff_flat A hs
  have hflat : (flatKkt A).IsSymm := by
    ext i j
    exact hs.apply _ _
  have hI' : HasInertia (flatKkt A) n m 0 := (hasInertia_flatKkt A n m 0).2 hI
  have hok : r.info = some true := by
    rw [C58_success_iff alpha h0 h1 o _ _ 32 (by omega) r hr, hmat]
    exact HasInertia.det_ne_zero hflat hI'
  simp only [bkBackend, hr] at hz
  refine ⟨?_, fun b a => ?_⟩
  · obtain ⟨p, q, e1, e2⟩ := C57_bk_inertia alpha h0 h1 o _ _ 32 (by omega) eps r hr hok hz
    rw [hmat] at e2
    obtain ⟨rfl, rfl, -⟩ := HasInertia.unique e2 hI'
    simp only [bkBackend, hr, checkInertia, e1]
    simp
  · have := C58_solves alpha h0 h1 o _ _ 32 (by omega) r hr hok (padVec b) a a.2
    simp only [bkBackend, hr]
    rw [Finset.sum_range] at this
    have e : padVec b a = b a := by simp [padVec]
    rw [← e, ← this]
    refine Finset.sum_congr rfl fun c _ => ?_
    have := congrFun (congrFun hmat a) c
    simp only [toMat, flatKkt, Matrix.of_apply] at this
    rw [this]

/-- **C79** for Bunch-Kaufman in exact arithmetic (no threshold): exact on every symmetric matrix of the right inertia. -/
theorem C79_bk (alpha : K) (h0 : 0 < alpha) (h1 : alpha < 1) (o : BkObj K)
    (A : Matrix (Fin n ⊕ Fin m) (Fin n ⊕ Fin m) K) (hs : A.IsSymm) (hI : HasInertia A n m 0) :
    ExactAt (bkBackend alpha 0 o) A := by
  refine C79_bk_threshold alpha 0 h0 h1 o A hs hI ?_
  obtain ⟨r, hr, hn, -⟩ := C58_compute_total alpha h0 h1 o (n + m) (flatEntries A) 32 (by omega)
  have hflat : (flatKkt A).IsSymm := by
    ext i j
    exact hs.apply _ _
  have hok : r.info = some true := by
    rw [C58_success_iff alpha h0 h1 o _ _ 32 (by omega) r hr, toMat_matCoeff_flat A hs]
    exact HasInertia.det_ne_zero hflat ((hasInertia_flatKkt A n m 0).2 hI)
  obtain ⟨p, q, e1, -⟩ := C57_bk_inertia_exact alpha h0 h1 o _ _ 32 (by omega) r hr hok
  simp only [bkBackend, hr]
  exact zero_notMem_of_tuple e1

theorem bkSignature_entries (eps : K) (o : BkObj K) : ∀ s ∈ o.signature eps, s = 1 ∨ s = -1 ∨ s = 0 := by
  have key : ∀ (N : ℕ) (k : ℕ) (s : ℕ → ℤ), o.n - k = N → (∀ i, s i = 1 ∨ s i = -1 ∨ s i = 0) →
      ∀ i, forPivots o.n o.piv
    (fun k _ s =>
      let ak := o.mat k k
      let akp1 := o.mat (k + 1) (k + 1)
      let akp1k := o.subdiag k
      let tr := ak + akp1
      let det := ak * akp1 - akp1k * akp1k
      if |det| ≤ eps then fun i => if i = k then 0 else if i = k + 1 then cwiseSign tr else s i
      else if 0 < det then fun i => if i = k then cwiseSign tr else if i = k + 1 then cwiseSign tr else s i
      else fun i => if i = k then -1 else if i = k + 1 then 1 else s i)
    (fun k _ s => fun i => if i = k then cwiseSign (o.mat k k) else s i) k s i ∈ ({1, -1, 0} : Set ℤ) := by
    intro N
    induction N using Nat.strong_induction_on with
    | _ N ih =>
      intro k s hN hs i
      rw [forPivots]
      split_ifs with h1 h2
      · refine ih (o.n - (k + 2)) (by omega) _ _ rfl ?_ i
        intro j
        have c1 := cwiseSign_entries (o.mat k k + o.mat (k + 1) (k + 1))
        have c2 := hs j
        split_ifs <;> by_cases e1 : j = k <;> by_cases e2 : j = k + 1 <;> simp [e1, e2] <;> first | assumption | omega
      · refine ih (o.n - (k + 1)) (by omega) _ _ rfl ?_ i
        intro j
        have c1 := cwiseSign_entries (o.mat k k)
        have c2 := hs j
        split_ifs <;> assumption
      · exact hs i
  intro s hs
  obtain ⟨k, -, rfl⟩ := List.mem_map.1 hs
  exact key _ 0 _ rfl (fun _ => Or.inr (Or.inr rfl)) k

/-- **C79** for Bunch-Kaufman, up to the block size and without threshold: the check accepts exactly the matrices of the right
inertia, so the linear solver is exact in the sense of C70/C71 on all symmetric matrices. -/
theorem C79_bk_exact (alpha : K) (h0 : 0 < alpha) (h1 : alpha < 1) (o : BkObj K) (hn : n + m ≤ 32) :
    ExactBackend (bkBackend (n := n) (m := m) alpha 0 o) where
  entries := by
    intro A s hs
    obtain ⟨r, hr, -⟩ := C58_compute_total alpha h0 h1 o (n + m) (flatEntries A) 32 (by omega)
    simp only [bkBackend, hr] at hs
    exact bkSignature_entries _ _ _ hs
  inertia := by
    intro A hs
    refine ⟨fun h => ?_, fun h => (C79_bk alpha h0 h1 o A hs h).1⟩
    obtain ⟨r, hr, -⟩ := C58_compute_total alpha h0 h1 o (n + m) (flatEntries A) 32 (by omega)
    simp only [bkBackend, hr] at h
    have := (C57_bk_verdict_small alpha h0 h1 o n m _ 32 (by omega) hn 0 r hr h).2
    rwa [toMat_matCoeff_flat A hs, hasInertia_flatKkt] at this
  solves A hs hI := (C79_bk alpha h0 h1 o A hs hI).2

theorem permuted_one_flat (A : Matrix (Fin n ⊕ Fin m) (Fin n ⊕ Fin m) K) : permuted 1 (flatKkt A) = flatEntries A := rfl

theorem hasInertia_kkt (Hs : Matrix (Fin n) (Fin n) K) (hH : PosDef Hs) (J : Fin m → Fin n → K)
    (d : Fin m → K) (hd : ∀ i, d i < 0) : HasInertia (kktMatrix Hs J d) n m 0 := by
  rw [C24_inertia_iff _ _ _ hd]
  intro v hv
  rw [quad_reduced]
  have h1 := hH v hv
  have h2 : 0 ≤ ∑ i, 1 / -d i * (∑ k, J i k * v k) ^ 2 :=
    Finset.sum_nonneg fun i _ => mul_nonneg (one_div_nonneg.2 (by linarith [hd i])) (sq_nonneg _)
  linarith

/-- **C79** for the dense LDLT: on every KKT matrix with positive definite Hessian block and negative dual diagonal whose pivots
exceed `tiny`, the check passes and the solve is exact. -/
theorem C79_dense (tiny : K) (o : DenseObj K) (Hs : Matrix (Fin n) (Fin n) K) (hsym : Hs.IsSymm) (hH : PosDef Hs)
    (J : Fin m → Fin n → K) (d : Fin m → K) (hd : ∀ i, d i < 0)
    (ht : ∀ k < n + m, tiny < |(o.compute (n + m) (flatEntries (kktMatrix Hs J d))).vectorD k|) :
    ExactAt (denseBackend tiny o) (kktMatrix Hs J d) := by
  obtain ⟨hL, hpiv⟩ := C78_kkt_pivots o Hs hsym hH J d hd 1
  rw [permuted_one_flat] at hL hpiv
  set F := o.compute (n + m) (flatEntries (kktMatrix Hs J d)) with hF
  have hne : ∀ k < n + m, F.vectorD k ≠ 0 := by
    intro k hk
    have := hpiv ⟨k, hk⟩
    by_cases hc : (((1 : Equiv.Perm (Fin (n + m))) ⟨k, hk⟩ : Fin (n + m)) : ℕ) < n
    · rw [if_pos hc] at this; exact this.ne'
    · rw [if_neg hc] at this; exact this.ne
  have hsK := C24_symmetric Hs hsym J d
  refine ⟨?_, fun b a => ?_⟩
  · refine (C57_ldlt_verdict o n m _ fun k hk => hne k (by omega)).2 ?_
    rw [toMat_matCoeff_flat _ hsK, hasInertia_flatKkt]
    exact hasInertia_kkt Hs hH J d hd
  · have hFn : F.n = n + m := rfl
    have := C55_solves tiny F (flatEntries (kktMatrix Hs J d)) (by rw [hFn]; exact hL) (by rw [hFn]; exact ht)
      (by rw [hFn]; exact hne) (padVec b) a (by rw [hFn]; exact a.2)
    rw [hFn, Finset.sum_range] at this
    have e : padVec b a = b a := by simp [padVec]
    rw [← e, ← this]
    refine Finset.sum_congr rfl fun c _ => ?_
    simp only [denseBackend, ← hF]
    simp [flatEntries]

/-- **C79** for the block LDLT, allocated for any primal and dual block sizes: as for the dense one. -/
theorem C79_block (tiny : K) (g : ℕ → ℕ → BlockKind) (primal dual : List ℕ) (o : BlockObj K) (fuel : ℕ)
    (hne : primal ≠ [] ∨ dual ≠ []) (hfuel : (primal.length + dual.length).factorial ≤ fuel)
    (ho : allocateBlockSparse fuel g primal dual = some o.an)
    (Hs : Matrix (Fin primal.sum) (Fin primal.sum) K) (hsym : Hs.IsSymm) (hH : PosDef Hs) (J : Fin dual.sum → Fin primal.sum → K)
    (d : Fin dual.sum → K) (hd : ∀ i, d i < 0)
    (ht : ∀ k < primal.sum + dual.sum,
      tiny < |(o.compute (primal.sum + dual.sum) (flatEntries (kktMatrix Hs J d))).vectorD k|) :
    ExactAt (blockBackend tiny o) (kktMatrix Hs J d) := by
  obtain ⟨-, -, h3, h4⟩ := C78_block_kkt tiny g primal dual o fuel hne hfuel ho Hs hsym hH J d hd
    (flatEntries (kktMatrix Hs J d)) (by intro i j _; simp [flatEntries, flatKkt])
  refine ⟨h3, fun b a => ?_⟩
  have := (h4 ht 1 fun r _ => padVec b r).2 0 (by omega) a
  have e : padVec b a = b a := by simp [padVec]
  rw [← e, ← this]
  rfl

/-- A factorisation of a KKT matrix in any order of its rows has the pivots of the dense LDLT in that order. -/
theorem kkt_pivots_ne (Hs : Matrix (Fin n) (Fin n) K) (hsym : Hs.IsSymm) (hH : PosDef Hs)
    (J : Fin m → Fin n → K) (d : Fin m → K) (hd : ∀ i, d i < 0) (f : PsFactor K (n + m))
    (hf : FactorsOf f (flatEntries (kktMatrix Hs J d))) : ∀ k < n + m, f.vectorD k ≠ 0 := by
  intro k hk
  unfold FactorsOf at hf
  rw [toMat_matCoeff_flat _ (C24_symmetric Hs hsym J d)] at hf
  obtain ⟨hL, hpiv⟩ := C78_kkt_pivots (DenseObj.init 0) Hs hsym hH J d hd f.perm
  rw [(IsLDL.unique hf hL).1 k hk]
  have := hpiv ⟨k, hk⟩
  by_cases hc : ((f.perm ⟨k, hk⟩ : Fin (n + m)) : ℕ) < n
  · rw [if_pos hc] at this; exact this.ne'
  · rw [if_neg hc] at this; exact this.ne

/-- **C79** for ProxSuite's LDLT, under the contract of its factorisation: as for the dense one. -/
theorem C79_proxsuite (tiny : K) (ht0 : 0 ≤ tiny) (fac : (ℕ → ℕ → K) → PsFactor K (n + m)) (hfac : PivotedLdlt fac)
    (Hs : Matrix (Fin n) (Fin n) K) (hsym : Hs.IsSymm) (hH : PosDef Hs) (J : Fin m → Fin n → K) (d : Fin m → K)
    (hd : ∀ i, d i < 0) (ht : ∀ k < n + m, tiny < |(fac (flatEntries (kktMatrix Hs J d))).vectorD k|) :
    ExactAt (psBackend tiny fac) (kktMatrix Hs J d) := by
  have hsK := C24_symmetric Hs hsym J d
  have hf := hfac (flatEntries (kktMatrix Hs J d)) fun σ => by
    rw [toMat_matCoeff_flat _ hsK]
    exact ⟨_, _, (C78_kkt_pivots (DenseObj.init 0) Hs hsym hH J d hd σ).1⟩
  refine ⟨?_, fun b a => ?_⟩
  · refine (C82_verdict _ _ hf).2 ?_
    rw [toMat_matCoeff_flat _ hsK, hasInertia_flatKkt]
    exact hasInertia_kkt Hs hH J d hd
  · have := C82_solves tiny ht0 _ _ hf ht (padVec b) a
    have e : padVec b a = b a := by simp [padVec]
    rw [← e, ← this]
    refine Finset.sum_congr rfl fun c _ => ?_
    have := congrFun (congrFun (toMat_matCoeff_flat _ hsK) a) c
    simp only [toMat, flatKkt, Matrix.of_apply] at this
    rw [this]
    rfl

/-- The linear solvers of the library without their rounding thresholds (machine epsilon, smallest normal number), started from
any earlier factorisation. -/
inductive Spec.LibraryBackend : {n m : ℕ} → Backend K n m → Prop
  | bunchKaufman {n m : ℕ} (alpha : K) (h0 : 0 < alpha) (h1 : alpha < 1) (o : BkObj K) :
      LibraryBackend (bkBackend (n := n) (m := m) alpha 0 o)
  | dense {n m : ℕ} (o : DenseObj K) : LibraryBackend (denseBackend (n := n) (m := m) 0 o)
  | block (g : ℕ → ℕ → BlockKind) (primal dual : List ℕ) (o : BlockObj K) (fuel : ℕ)
      (hne : primal ≠ [] ∨ dual ≠ []) (hfuel : (primal.length + dual.length).factorial ≤ fuel)
      (ho : allocateBlockSparse fuel g primal dual = some o.an) :
      LibraryBackend (blockBackend (n := primal.sum) (m := dual.sum) 0 o)
  | proxsuite {n m : ℕ} (fac : (ℕ → ℕ → K) → PsFactor K (n + m)) (hfac : PivotedLdlt fac) :
      LibraryBackend (psBackend (n := n) (m := m) 0 fac)

/-- **C79**: every linear solver of the library is exact on every KKT matrix with positive definite Hessian block and negative
dual diagonal: the inertia check accepts it at once and the system is solved. -/
theorem C79_exact {B : Backend K n m} (hB : LibraryBackend B) (Hs : Matrix (Fin n) (Fin n) K) (hsym : Hs.IsSymm)
    (hH : PosDef Hs) (J : Fin m → Fin n → K) (d : Fin m → K) (hd : ∀ i, d i < 0) : ExactAt B (kktMatrix Hs J d) := by
  cases hB with
  | bunchKaufman alpha h0 h1 o => exact C79_bk alpha h0 h1 o _ (C24_symmetric Hs hsym J d) (hasInertia_kkt Hs hH J d hd)
  | dense o =>
    refine C79_dense 0 o Hs hsym hH J d hd fun k hk => abs_pos.2 ?_
    obtain ⟨-, hpiv⟩ := C78_kkt_pivots o Hs hsym hH J d hd 1
    have := hpiv ⟨k, hk⟩
    by_cases hc : (((1 : Equiv.Perm (Fin (n + m))) ⟨k, hk⟩ : Fin (n + m)) : ℕ) < n
    · rw [if_pos hc] at this; exact this.ne'
    · rw [if_neg hc] at this; exact this.ne
  | block g primal dual o fuel hne hfuel ho =>
    refine C79_block 0 g primal dual o fuel hne hfuel ho Hs hsym hH J d hd fun k hk => abs_pos.2 ?_
    obtain ⟨-, hpiv, -⟩ := C78_block_kkt 0 g primal dual o fuel hne hfuel ho Hs hsym hH J d hd
      (flatEntries (kktMatrix Hs J d)) (by intro i j _; simp [flatEntries, flatKkt])
    have := hpiv k hk
    by_cases hc : o.an.indices.getD k 0 < primal.sum
    · rw [if_pos hc] at this; exact this.ne'
    · rw [if_neg hc] at this; exact this.ne
  | proxsuite fac hfac =>
    refine C79_proxsuite 0 le_rfl fac hfac Hs hsym hH J d hd fun k hk => abs_pos.2 ?_
    refine kkt_pivots_ne Hs hsym hH J d hd _ (hfac _ fun σ => ?_) k hk
    rw [toMat_matCoeff_flat _ (C24_symmetric Hs hsym J d)]
    exact ⟨_, _, (C78_kkt_pivots (DenseObj.init 0) Hs hsym hH J d hd σ).1⟩

/-- **C79, the step**: with any linear solver of the library, no initial regularisation, `mu > 0` and a positive definite
Hessian block, the accepted step is `a` times the solution of the semismooth Newton system, for any problem and any constraint
sets, and no regularisation is added. -/
theorem C79_newton_step (C : StepCfg X K n m) (hp : GoodParams C.inertia) (h0 : C.inertia.deltaInit = 0)
    (hmax : 0 ≤ C.inertia.deltaMax) (hB : LibraryBackend C.backend) (hls : GoodLS C.ls) (hsing : InRange C.sing)
    (i : StepIn X K (Hidden K n m) n m) (hmu : 0 < i.mu) (M : Mults K m)
    (hM : M = computeMultipliers C.sets i.mu i.setMu C.beta i.ev.c i.lam i.lamPrev) (Hs : Matrix (Fin n) (Fin n) K)
    (hHs : Hs = kktHessian (C.approx == .exact) i.rho i.hidden.hess (C.proxHess i.rho i.target i.x) i.hidden.vhps)
    (hsym : Hs.IsSymm) (hpos : PosDef Hs) (o : StepOut X K (Hidden K n m) m) (h : stepFull C i = .ok o) :
    ∃ (dx : Fin n → K) (dlam : Fin m → K) (a : K), C.ls.alphaMin ≤ a ∧ a ≤ 1 ∧
      o.x = C.integrate i.x (a • dx) ∧ o.lam = i.lam + a • dlam ∧ o.hidden.deltaLast = 0 ∧
      Newton C.kkt i.mu Hs i.ev.jac (fun k => keptRows C.kkt C.sets i.setMu M k = true)
        (rhsPrimal i.rho i.ev.grad i.ev.proxGrad i.ev.jac i.lam) (rhsDual C.kkt i.mu M i.lam) dx dlam := by
  subst hHs
  exact C70_newton_step C hp h0 hmax hls hsing i hmu.ne' M hM
    (C79_exact hB _ hsym hpos _ _ (kktDual_neg C.kkt i.mu hmu _)) o h

/-- **C79, merit decrease**: in the primal-dual mode and under the hypotheses of `C79_newton_step`, a step away from a point that
is not optimal for the subproblem decreases the merit function, up to the emergency exits of the line search (as in C71). -/
theorem C79_merit_decreases (C : StepCfg X K n m) (hp : GoodParams C.inertia) (h0 : C.inertia.deltaInit = 0)
    (hmax : 0 ≤ C.inertia.deltaMax) (hB : LibraryBackend C.backend) (hls : GoodLS C.ls)
    (hc1 : 0 < C.ls.armijoC1) (hth : 0 < C.ls.dphiThresh) (hint : C.ls.interp ≠ .cubic)
    (hsing : InRange C.sing) (hkkt : C.kkt = .primalDual) (hbeta : C.beta = 1 / 2)
    (i : StepIn X K (Hidden K n m) n m) (hmu : 0 < i.mu) (hset : i.setMu = i.mu) (M : Mults K m)
    (hM : M = computeMultipliers C.sets i.mu i.setMu C.beta i.ev.c i.lam i.lamPrev) (Hs : Matrix (Fin n) (Fin n) K)
    (hHs : Hs = kktHessian (C.approx == .exact) i.rho i.hidden.hess (C.proxHess i.rho i.target i.x) i.hidden.vhps)
    (hsym : Hs.IsSymm) (hpos : PosDef Hs)
    (hres : ¬ (rhsPrimal i.rho i.ev.grad i.ev.proxGrad i.ev.jac i.lam = 0 ∧ rhsDual C.kkt i.mu M i.lam = 0))
    (htot : ∀ x, C.eval x ≠ none)
    (o : StepOut X K (Hidden K n m) m) (h : stepFull C i = .ok o) :
    ∃ (dx : Fin n → K) (dlam : Fin m → K) (slope : K) (r : LSResult K),
      slope = dmeritDir i.rho C.beta i.setMu i.ev.grad i.ev.proxGrad i.ev.jac i.lam M.lamsPdal dx dlam ∧
      lsRun C.sqrt C.sing (stepPhi C i dx dlam) C.ls i.ev.merit slope C.fuel = some r ∧
      o.x = C.integrate i.x (r.alpha • dx) ∧ o.lam = i.lam + r.alpha • dlam ∧ slope < 0 ∧
      stepPhi C i dx dlam r.alpha = some o.merit ∧
      ((o.merit ≤ i.ev.merit + C.ls.armijoC1 * r.alpha * slope ∧ o.merit < i.ev.merit) ∨
        |slope| < C.ls.dphiThresh ∨ r.alpha = C.ls.alphaMin ∨ r.trace.length = C.ls.maxNumSteps) := by
  subst hHs
  exact C71_merit_decreases C hp h0 hmax hls hc1 hth hint hsing hkkt hbeta i hmu hset M hM
    (C79_exact hB _ hsym hpos _ _ (kktDual_neg C.kkt i.mu hmu _))
    (hasInertia_kkt _ hpos _ _ (kktDual_neg C.kkt i.mu hmu _)) hres htot o h

/-- **C79, quasi-Newton**: with the identity Hessian approximation (and no proximal term) the hypothesis on the Hessian block of
`C79_newton_step` and `C79_merit_decreases` always holds, at every state reached from `setup()`. -/
theorem C79_identity (C : StepCfg X K n m) (happ : C.approx = .identity) (i : StepIn X K (Hidden K n m) n m)
    (hrho : i.rho ≤ 0) (h : Hidden K n m) (hv : h.vhps = []) (x : X) (g : Fin n → K) (l : Fin m → K)
    (hi : i.hidden = hessUpdate C h x g l) (Hs : Matrix (Fin n) (Fin n) K)
    (hHs : Hs = kktHessian (C.approx == .exact) i.rho i.hidden.hess (C.proxHess i.rho i.target i.x) i.hidden.vhps) :
    Hs.IsSymm ∧ PosDef Hs := by
  have : Hs = 1 := by
    rw [hHs, hi]
    simp only [hessUpdate, happ, hv, kktHessian, if_neg (not_lt.2 hrho), List.foldl_nil]
  subst this
  refine ⟨Matrix.isSymm_one, fun v hv => ?_⟩
  obtain ⟨j, hj⟩ := Function.ne_iff.1 hv
  have e : quad (1 : Matrix (Fin n) (Fin n) K) v = ∑ i, v i * v i := by
    refine Finset.sum_congr rfl fun i _ => ?_
    simp [Matrix.one_apply]
  rw [e]
  exact Finset.sum_pos' (fun i _ => mul_self_nonneg _) ⟨j, Finset.mem_univ _, mul_self_pos.2 hj⟩

/-! ### concrete cases -/

namespace Demo

/-- ProxSuite's solver, whatever order of the rows it chooses -/
theorem proxsuite_library (σ : Equiv.Perm (Fin 3)) : LibraryBackend (psBackend (n := 2) (m := 1) (0 : ℚ) (orderedFac σ)) :=
  .proxsuite _ (orderedFac_pivoted σ)

/-- Bunch-Kaufman with the constant of the code rounded to a rational -/
theorem bk_library : LibraryBackend (bkBackend (n := 2) (m := 1) (16 / 25 : ℚ) 0 (BkObj.init 3)) :=
  .bunchKaufman _ (by norm_num) (by norm_num) _

/-- one equality constraint `x0 + x1 = 1` -/
def qpMat : Matrix (Fin 2 ⊕ Fin 1) (Fin 2 ⊕ Fin 1) ℚ :=
  kktMatrix (Matrix.of ![![2, 1], ![1, 3]]) ![![1, 1]] ![-1 / 100]

/-- non-vacuity of C79: a KKT matrix with two variables and one constraint meets the hypotheses -/
theorem qp_pos : PosDef (Matrix.of ![![(2 : ℚ), 1], ![1, 3]]) := by
  intro v hv
  have e : quad (Matrix.of ![![(2 : ℚ), 1], ![1, 3]]) v = 2 * (v 0 + v 1 / 2) ^ 2 + 5 / 2 * v 1 ^ 2 := by
    simp [quad, Fin.sum_univ_two]; ring
  rw [e]
  by_cases h1 : v 1 = 0
  · have h0 : v 0 ≠ 0 := by
      intro h0; apply hv; funext i; fin_cases i
      · exact h0
      · exact h1
    rw [h1]; have := pow_pos (abs_pos.2 h0) 2; rw [sq_abs] at this; simp; nlinarith
  · have := pow_pos (abs_pos.2 h1) 2; rw [sq_abs] at this; nlinarith [sq_nonneg (v 0 + v 1 / 2)]

example : ExactAt (bkBackend (16 / 25 : ℚ) 0 (BkObj.init 3)) qpMat :=
  C79_exact bk_library _ (by decide +kernel) qp_pos _ _ (by decide +kernel)

example : ExactAt (denseBackend (0 : ℚ) (DenseObj.init 3)) qpMat :=
  C79_exact (.dense _) _ (by decide +kernel) qp_pos _ _ (by decide +kernel)

example : ∃ o : BlockObj ℚ, ExactAt (blockBackend (0 : ℚ) o) qpMat := by
  obtain ⟨a, ha, -⟩ := analysed_allocated (fun _ _ => .zero) [2] [1] (Or.inl (by simp)) 2 (by decide)
  exact ⟨_, C79_exact (K := ℚ) (n := [2].sum) (m := [1].sum)
    (.block (fun _ _ => .zero) [2] [1] { an := a, n := 3, mat := fun _ _ => (0 : ℚ), sign := .zeroSign, info := none } 2 (Or.inl (by simp))
      (by decide) ha) (Matrix.of ![![(2 : ℚ), 1], ![1, 3]]) (by decide +kernel) qp_pos ![![1, 1]] ![-1 / 100] (show ∀ i : Fin 1, (![-1 / 100] : Fin 1 → ℚ) i < 0 by decide +kernel)⟩

/-- two of the three solvers reach the same solution of the system -/
example : (bkBackend (16 / 25 : ℚ) 0 (BkObj.init 3)).solve qpMat ![1, 0, 2] = (denseBackend (0 : ℚ) (DenseObj.init 3)).solve qpMat ![1, 0, 2] := by
  decide +kernel

example : (bkBackend (16 / 25 : ℚ) 0 (BkObj.init 3)).sig qpMat ≠ (bkBackend (16 / 25 : ℚ) 0 (BkObj.init 3)).sig (-qpMat) := by
  decide +kernel

end Demo

end ProxNLP
