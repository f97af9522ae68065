import Verif.Model.Inertia
import Verif.Lemmas.Math
import Verif.Lemmas.Calc
import Mathlib.Algebra.Order.Archimedean.Basic
import Mathlib.Algebra.Order.BigOperators.Group.Finset
import Mathlib.Data.List.Chain
import Mathlib.Tactic.Ring
import Mathlib.Tactic.FieldSimp
import Mathlib.Tactic.NormNum
import Mathlib.Tactic.FinCases
import Mathlib.LinearAlgebra.Matrix.Notation
import Mathlib.Data.Sign.Basic

/-!
Property theorems C25 (regularisation loop), C26 (inertia counting and verdict), C27 (iterative refinement).
-/

set_option linter.unusedSectionVars false
namespace ProxNLP

/-! ## C26 -/

theorem computeInertiaTuple_aux (l : List ℤ) (a : ℕ × ℕ × ℕ) :
    l.foldlM (m := Option) (fun (acc : ℕ × ℕ × ℕ) s =>
      if s = 1 then some (acc.1 + 1, acc.2.1, acc.2.2)
      else if s = 0 then some (acc.1, acc.2.1, acc.2.2 + 1)
      else if s = -1 then some (acc.1, acc.2.1 + 1, acc.2.2)
      else none) a =
    if ∀ s ∈ l, s = 1 ∨ s = -1 ∨ s = 0 then
      some (a.1 + l.count 1, a.2.1 + l.count (-1), a.2.2 + l.count 0) else none := by
  induction l generalizing a with
  | nil => simp
  | cons s t ih =>
    rw [List.foldlM_cons]
    by_cases h1 : s = 1
    · subst h1
      simp only [if_true, Option.bind_eq_bind, Option.bind_some, ih]
      simp [add_assoc, add_comm, add_left_comm]
    · by_cases h0 : s = 0
      · subst h0
        simp only [if_true, Option.bind_eq_bind, Option.bind_some, ih, show ¬ ((0 : ℤ) = 1) by decide, if_false]
        simp [add_assoc, add_comm, add_left_comm]
      · by_cases hm : s = -1
        · subst hm
          simp only [if_true, Option.bind_eq_bind, Option.bind_some, ih, show ¬ ((-1 : ℤ) = 1) by decide,
            show ¬ ((-1 : ℤ) = 0) by decide, if_false]
          simp [add_assoc, add_comm, add_left_comm]
        · simp [h1, h0, hm]

/-- C26: the tuple is accepted exactly when all entries are -1, 0 or 1, and then counts them. -/
theorem C26_inertia_tuple (l : List ℤ) (p q z : ℕ) :
    computeInertiaTuple l = some (p, q, z) ↔
      (∀ s ∈ l, s = 1 ∨ s = -1 ∨ s = 0) ∧ p = l.count 1 ∧ q = l.count (-1) ∧ z = l.count 0 := by
  unfold computeInertiaTuple
  rw [computeInertiaTuple_aux]
  split_ifs with h
  · simp only [zero_add, Option.some.injEq, Prod.mk.injEq]
    constructor
    · rintro ⟨a, b, c⟩; exact ⟨h, a.symm, b.symm, c.symm⟩
    · rintro ⟨_, a, b, c⟩; exact ⟨a.symm, b.symm, c.symm⟩
  · simp [h]

/-- C26: any other entry raises an exception. -/
theorem C26_inertia_tuple_rejects (l : List ℤ) :
    computeInertiaTuple l = none ↔ ∃ s ∈ l, s ≠ 1 ∧ s ≠ -1 ∧ s ≠ 0 := by
  unfold computeInertiaTuple
  rw [computeInertiaTuple_aux]
  split_ifs with h
  · simp only [reduceCtorEq, false_iff]
    rintro ⟨s, hs, h1, h2, h3⟩
    rcases h s hs with h | h | h <;> contradiction
  · simp only [true_iff]
    push Not at h
    exact h

/-- C26: the counts add up to the size of the vector. -/
theorem C26_counts_add_up (l : List ℤ) (p q z : ℕ) (h : computeInertiaTuple l = some (p, q, z)) :
    p + q + z = l.length := by
  obtain ⟨hl, rfl, rfl, rfl⟩ := (C26_inertia_tuple l p q z).1 h
  clear h
  induction l with
  | nil => simp
  | cons s t ih =>
    have := ih fun x hx => hl x (List.mem_cons_of_mem _ hx)
    rcases hl s List.mem_cons_self with rfl | rfl | rfl <;> simp <;> omega

/-- C26: the verdict. -/
theorem C26_check_inertia (ndx nc : ℕ) (l : List ℤ) (hl : ∀ s ∈ l, s = 1 ∨ s = -1 ∨ s = 0) :
    (checkInertia ndx nc l = some .ok ↔ l.count 1 = ndx ∧ l.count (-1) = nc ∧ l.count 0 = 0) ∧
    (checkInertia ndx nc l = some .hasZeros ↔ l.count 0 ≠ 0) ∧
    (checkInertia ndx nc l = some .bad ↔ l.count 0 = 0 ∧ ¬ (l.count 1 = ndx ∧ l.count (-1) = nc)) := by
  have h := (C26_inertia_tuple l _ _ _).2 ⟨hl, rfl, rfl, rfl⟩
  simp only [checkInertia, h, Option.map_some]
  by_cases h1 : l.count 1 = ndx <;> by_cases h2 : l.count (-1) = nc <;> by_cases h3 : l.count 0 = 0 <;>
    simp [h1, h2, h3]

example : checkInertia 2 1 [1, -1, 1] = some .ok ∧ checkInertia 2 1 [1, 0, -1] = some .hasZeros ∧
    checkInertia 2 1 [-1, -1, 1] = some .bad ∧ checkInertia 2 1 [2] = none := by decide

/-! ## C25 -/

variable {K : Type} [Field K] [LinearOrder K] [IsStrictOrderedRing K] {n m : ℕ}

/-- The KKT matrix with `delta` times the identity added to its primal block. -/
def Spec.shifted (A : Matrix (Fin n ⊕ Fin m) (Fin n ⊕ Fin m) K) (delta : K) :
    Matrix (Fin n ⊕ Fin m) (Fin n ⊕ Fin m) K :=
  A + Matrix.fromBlocks (delta • (1 : Matrix (Fin n) (Fin n) K)) 0 0 0

open Spec

theorem addPrimalDiag_eq (A : Matrix (Fin n ⊕ Fin m) (Fin n ⊕ Fin m) K) (delta : K) :
    addPrimalDiag A delta = shifted A delta := by
  funext i j
  rcases i with a | a <;> rcases j with b | b <;>
    simp [addPrimalDiag, shifted, Matrix.add_apply, Matrix.one_apply]
  by_cases h : a = b
  · subst h; simp
  · simp [h, Ne.symm h]

theorem shifted_shifted_neg (A : Matrix (Fin n ⊕ Fin m) (Fin n ⊕ Fin m) K) (delta : K) :
    shifted (shifted A delta) (-delta) = A := by
  unfold shifted
  rw [add_assoc, Matrix.fromBlocks_add]
  have : Matrix.fromBlocks (delta • (1 : Matrix (Fin n) (Fin n) K) + -delta • (1 : Matrix (Fin n) (Fin n) K))
      ((0 : Matrix (Fin n) (Fin m) K) + 0) ((0 : Matrix (Fin m) (Fin n) K) + 0) ((0 : Matrix (Fin m) (Fin m) K) + 0)
      = 0 := by
    rw [← add_smul]; simp
  rw [this, add_zero]

theorem shifted_zero (A : Matrix (Fin n ⊕ Fin m) (Fin n ⊕ Fin m) K) : shifted A 0 = A := by
  simp [shifted]

/-- Settings allowed by the property: increase factors above 1 and positive starting values. -/
structure Spec.GoodParams (p : InertiaParams K) : Prop where
  init : 0 ≤ p.deltaInit
  nonzero : 0 < p.deltaNonzeroInit
  min : 0 < p.deltaMin
  inc : 1 < p.incK
  big : 1 < p.incBig

/-- The regularisation tried after `d` failed, when the last successful one was `last`. -/
def Spec.nextDelta (p : InertiaParams K) (last d : K) : K :=
  if d = 0 then (if last = 0 then p.deltaNonzeroInit else max p.deltaMin (p.decK * last))
  else d * (if last = 0 then p.incBig else p.incK)

theorem nextDelta_gt (p : InertiaParams K) (hp : GoodParams p) (last d : K) (hd : 0 ≤ d) :
    d < nextDelta p last d := by
  unfold nextDelta
  split_ifs with h1 h2 h2
  · rw [h1]; exact hp.nonzero
  · rw [h1]; exact lt_max_of_lt_left hp.min
  · exact lt_mul_of_one_lt_right (lt_of_le_of_ne hd (Ne.symm h1)) hp.big
  · exact lt_mul_of_one_lt_right (lt_of_le_of_ne hd (Ne.symm h1)) hp.inc

/-- loop invariant -/
structure InertiaInv (p : InertiaParams K) (sig : Matrix (Fin n ⊕ Fin m) (Fin n ⊕ Fin m) K → List ℤ)
    (A : Matrix (Fin n ⊕ Fin m) (Fin n ⊕ Fin m) K) (last : K) (st : InertiaSt K n m) : Prop where
  mat : st.mat = A
  delta : 0 ≤ st.delta
  dlast : st.deltaLast = last
  flag : st.flag ≠ .ok
  log : ∀ e ∈ st.log, e.2 = shifted A e.1 ∧ 0 ≤ e.1 ∧ e.1 ≤ p.deltaMax ∧ e.1 < st.delta ∧
    checkInertia n m (sig e.2) ≠ some .ok
  pair : st.log.Pairwise fun a b => b.1 < a.1
  chain : (st.delta :: st.log.map Prod.fst).IsChain fun a b => a = nextDelta p last b
  first : (st.delta :: st.log.map Prod.fst).getLast (by simp) = p.deltaInit

/-- one pass, unfolded with the schedule -/
theorem inertiaLoop_succ (p : InertiaParams K) (sig : Matrix (Fin n ⊕ Fin m) (Fin n ⊕ Fin m) K → List ℤ)
    (fuel : ℕ) (st : InertiaSt K n m) (h : st.flag ≠ .ok) (hd : st.delta ≤ p.deltaMax) (h0 : 0 ≤ st.delta)
    (f : InertiaFlag) (hf : checkInertia n m (sig (shifted st.mat st.delta)) = some f) :
    inertiaLoop p sig (fuel + 1) st =
      if f = .ok then some (.ok { st with
        mat := st.mat, fac := some (shifted st.mat st.delta),
        log := (st.delta, shifted st.mat st.delta) :: st.log, flag := .ok, deltaLast := st.delta })
      else inertiaLoop p sig fuel { st with
        mat := st.mat, fac := some (shifted st.mat st.delta),
        log := (st.delta, shifted st.mat st.delta) :: st.log, flag := f,
        delta := nextDelta p st.deltaLast st.delta } := by
  have ha : (if 0 < st.delta then addPrimalDiag st.mat st.delta else st.mat) = shifted st.mat st.delta := by
    split_ifs with hpos
    · exact addPrimalDiag_eq _ _
    · have : st.delta = 0 := le_antisymm (not_lt.1 hpos) h0
      rw [this, shifted_zero]
  have hb : addPrimalDiag (shifted st.mat st.delta) (-st.delta) = st.mat := by
    rw [addPrimalDiag_eq, shifted_shifted_neg]
  rw [inertiaLoop, if_pos ⟨h, hd⟩]
  simp only [ha, hb, hf]
  cases f with
  | ok => simp
  | bad =>
    simp only [reduceCtorEq, if_false, nextDelta]
    split_ifs <;> rfl
  | hasZeros =>
    simp only [reduceCtorEq, if_false, nextDelta]
    split_ifs <;> rfl

theorem inertiaLoop_exit (p : InertiaParams K) (sig : Matrix (Fin n ⊕ Fin m) (Fin n ⊕ Fin m) K → List ℤ)
    (fuel : ℕ) (st : InertiaSt K n m) (hd : p.deltaMax < st.delta) :
    inertiaLoop p sig (fuel + 1) st = some (.ok st) := by
  rw [inertiaLoop, if_neg]
  rintro ⟨_, h⟩
  exact absurd h (not_le.2 hd)

/-- invariant kept by a failed pass -/
theorem InertiaInv.next {p : InertiaParams K} (hp : GoodParams p)
    {sig : Matrix (Fin n ⊕ Fin m) (Fin n ⊕ Fin m) K → List ℤ}
    {A : Matrix (Fin n ⊕ Fin m) (Fin n ⊕ Fin m) K} {last : K} {st : InertiaSt K n m}
    (hi : InertiaInv p sig A last st) (hd : st.delta ≤ p.deltaMax) (f : InertiaFlag) (hf : f ≠ .ok)
    (hcheck : checkInertia n m (sig (shifted st.mat st.delta)) = some f) :
    InertiaInv p sig A last { st with
        mat := st.mat, fac := some (shifted st.mat st.delta),
        log := (st.delta, shifted st.mat st.delta) :: st.log, flag := f,
        delta := nextDelta p st.deltaLast st.delta } where
  mat := hi.mat
  delta := hi.delta.trans (nextDelta_gt p hp _ _ hi.delta).le
  dlast := hi.dlast
  flag := hf
  log := by
    intro e he
    have hgt := nextDelta_gt p hp st.deltaLast st.delta hi.delta
    rcases List.mem_cons.1 he with rfl | he
    · refine ⟨by simp [hi.mat], hi.delta, hd, hgt, ?_⟩
      simp only [hcheck, ne_eq, Option.some.injEq]
      exact hf
    · obtain ⟨a, b, c, d, e'⟩ := hi.log e he
      exact ⟨a, b, c, d.trans hgt, e'⟩
  pair := List.pairwise_cons.2 ⟨fun e he => (hi.log e he).2.2.2.1, hi.pair⟩
  chain := by
    rw [List.map_cons, List.isChain_cons_cons]
    exact ⟨by rw [hi.dlast], hi.chain⟩
  first := by
    rw [List.getLast_cons (by simp)]
    exact hi.first

/-- what holds when the loop is left -/
structure Spec.CorrectionResult (p : InertiaParams K) (sig : Matrix (Fin n ⊕ Fin m) (Fin n ⊕ Fin m) K → List ℤ)
    (A : Matrix (Fin n ⊕ Fin m) (Fin n ⊕ Fin m) K) (st : InertiaSt K n m) : Prop where
  /-- the stored KKT matrix is the assembled one -/
  restored : st.mat = A
  /-- every factorised matrix is the assembled one with `delta I` added to the primal block, `0 ≤ delta ≤ DELTA_MAX` -/
  factorised : ∀ e ∈ st.log, e.2 = shifted A e.1 ∧ 0 ≤ e.1 ∧ e.1 ≤ p.deltaMax
  /-- regularisations strictly increase (the log has the last pass first) -/
  increasing : st.log.Pairwise fun a b => b.1 < a.1
  /-- the first pass uses `DELTA_INIT` -/
  first : ∀ e, st.log.getLast? = some e → e.1 = p.deltaInit
  /-- stops at the first correct inertia, or once `delta` exceeds `DELTA_MAX` with no correct one seen -/
  stop : (st.flag = .ok ∧ ∃ rest, st.log = (st.delta, shifted A st.delta) :: rest ∧
        st.fac = some (shifted A st.delta) ∧ st.deltaLast = st.delta ∧
        checkInertia n m (sig (shifted A st.delta)) = some .ok ∧
        ∀ e ∈ rest, checkInertia n m (sig e.2) ≠ some .ok) ∨
    (st.flag ≠ .ok ∧ p.deltaMax < st.delta ∧ ∀ e ∈ st.log, checkInertia n m (sig e.2) ≠ some .ok)

theorem checkInertia_isSome (l : List ℤ) (hl : ∀ s ∈ l, s = 1 ∨ s = -1 ∨ s = 0) :
    ∃ f, checkInertia n m l = some f := by
  have h := (C26_inertia_tuple l _ _ _).2 ⟨hl, rfl, rfl, rfl⟩
  exact ⟨_, by rw [checkInertia, h]; rfl⟩

theorem inertiaLoop_result (p : InertiaParams K) (hp : GoodParams p)
    (sig : Matrix (Fin n ⊕ Fin m) (Fin n ⊕ Fin m) K → List ℤ) (hsig : ∀ B, ∀ s ∈ sig B, s = 1 ∨ s = -1 ∨ s = 0)
    (A : Matrix (Fin n ⊕ Fin m) (Fin n ⊕ Fin m) K) (last : K) (fuel : ℕ) (st : InertiaSt K n m)
    (hi : InertiaInv p sig A last st) (r : Except String (InertiaSt K n m))
    (hr : inertiaLoop p sig fuel st = some r) :
    ∃ st', r = .ok st' ∧ CorrectionResult p sig A st' ∧
      ((st'.log.map Prod.fst).IsChain fun a b => a = nextDelta p last b) := by
  induction fuel generalizing st with
  | zero => simp [inertiaLoop] at hr
  | succ fuel ih =>
    by_cases hd : st.delta ≤ p.deltaMax
    · obtain ⟨f, hf⟩ := checkInertia_isSome (n := n) (m := m) _ (hsig (shifted st.mat st.delta))
      rw [inertiaLoop_succ p sig fuel st hi.flag hd hi.delta f hf] at hr
      by_cases hok : f = .ok
      · rw [if_pos hok] at hr
        cases hr
        subst hok
        refine ⟨_, rfl, ⟨hi.mat, ?_, ?_, ?_, Or.inl ⟨rfl, st.log, ?_, ?_, rfl, ?_, ?_⟩⟩, ?_⟩
        · intro e he
          rcases List.mem_cons.1 he with rfl | he
          · exact ⟨by simp [hi.mat], hi.delta, hd⟩
          · exact ⟨(hi.log e he).1, (hi.log e he).2.1, (hi.log e he).2.2.1⟩
        · exact List.pairwise_cons.2 ⟨fun e he => (hi.log e he).2.2.2.1, hi.pair⟩
        · intro e he
          have h1 := hi.first
          have h2 : (List.map Prod.fst ((st.delta, shifted st.mat st.delta) :: st.log)).getLast? =
            some e.1 := by rw [List.getLast?_map, he]; rfl
          rw [List.map_cons, List.getLast?_eq_some_getLast (by simp)] at h2
          rw [← Option.some.inj h2]; exact h1
        · simp [hi.mat]
        · simp [hi.mat]
        · rw [← hi.mat]; exact hf
        · exact fun e he => (hi.log e he).2.2.2.2
        · exact hi.chain
      · rw [if_neg hok] at hr
        exact ih _ (hi.next hp hd f hok hf) hr
    · push Not at hd
      rw [inertiaLoop_exit p sig fuel st hd] at hr
      cases hr
      refine ⟨st, rfl, ⟨hi.mat, fun e he => ?_, hi.pair, ?_, Or.inr ⟨hi.flag, hd, fun e he => (hi.log e he).2.2.2.2⟩⟩,
        ?_⟩
      · exact ⟨(hi.log e he).1, (hi.log e he).2.1, (hi.log e he).2.2.1⟩
      · intro e he
        have hne : st.log ≠ [] := by rintro h; rw [h] at he; simp at he
        have h1 := hi.first
        rw [List.getLast_cons (by simpa using hne)] at h1
        have h2 : (st.log.map Prod.fst).getLast? = some e.1 := by rw [List.getLast?_map, he]; rfl
        rw [List.getLast?_eq_some_getLast (by simpa using hne)] at h2
        rw [← Option.some.inj h2]; exact h1
      · exact hi.chain.tail

theorem inertiaInv_start (p : InertiaParams K) (hp : GoodParams p)
    (sig : Matrix (Fin n ⊕ Fin m) (Fin n ⊕ Fin m) K → List ℤ) (A : Matrix (Fin n ⊕ Fin m) (Fin n ⊕ Fin m) K)
    (last : K) (fac : Option (Matrix (Fin n ⊕ Fin m) (Fin n ⊕ Fin m) K)) :
    InertiaInv p sig A last (inertiaStart p A last fac) where
  mat := rfl
  delta := hp.init
  dlast := rfl
  flag := by simp [inertiaStart]
  log := by simp [inertiaStart]
  pair := by simp [inertiaStart]
  chain := by simp [inertiaStart]
  first := by simp [inertiaStart]

/-- progress towards `DELTA_MAX` -/
theorem inertiaLoop_terminates (p : InertiaParams K) (hp : GoodParams p)
    (sig : Matrix (Fin n ⊕ Fin m) (Fin n ⊕ Fin m) K → List ℤ) (hsig : ∀ B, ∀ s ∈ sig B, s = 1 ∨ s = -1 ∨ s = 0)
    (N : ℕ) (st : InertiaSt K n m) (hpos : 0 < st.delta) (hflag : st.flag ≠ .ok)
    (hN : p.deltaMax < st.delta * (min p.incK p.incBig) ^ N) :
    ∀ fuel, N + 1 ≤ fuel → ∃ r, inertiaLoop p sig fuel st = some r := by
  induction N generalizing st with
  | zero =>
    intro fuel hfuel
    obtain ⟨fuel, rfl⟩ : ∃ k, fuel = k + 1 := ⟨fuel - 1, by omega⟩
    exact ⟨_, inertiaLoop_exit p sig fuel st (by simpa using hN)⟩
  | succ N ih =>
    intro fuel hfuel
    obtain ⟨fuel, rfl⟩ : ∃ k, fuel = k + 1 := ⟨fuel - 1, by omega⟩
    by_cases hd : st.delta ≤ p.deltaMax
    · obtain ⟨f, hf⟩ := checkInertia_isSome (n := n) (m := m) _ (hsig (shifted st.mat st.delta))
      rw [inertiaLoop_succ p sig fuel st hflag hd hpos.le f hf]
      by_cases hok : f = .ok
      · rw [if_pos hok]; exact ⟨_, rfl⟩
      · rw [if_neg hok]
        refine ih _ ?_ hok ?_ fuel (by omega)
        · exact hpos.trans (nextDelta_gt p hp _ _ hpos.le)
        · have hq : 0 < min p.incK p.incBig := lt_min (one_pos.trans hp.inc) (one_pos.trans hp.big)
          refine hN.trans_le ?_
          rw [pow_succ', ← mul_assoc]
          refine mul_le_mul_of_nonneg_right ?_ (pow_nonneg hq.le _)
          simp only [nextDelta, if_neg hpos.ne']
          split_ifs
          · exact mul_le_mul_of_nonneg_left (min_le_right _ _) hpos.le
          · exact mul_le_mul_of_nonneg_left (min_le_left _ _) hpos.le
    · push Not at hd
      exact ⟨_, inertiaLoop_exit p sig fuel st hd⟩

/-- C25: for all settings with increase factors above 1 and positive starting values there is a number of passes that
suffices for every assembled matrix, every linear solver (any function returning a signature with entries in {-1,0,1})
and every previous regularisation (with more fuel the result is the same); the result is as described by
`CorrectionResult`: matrix restored, every factorisation of the assembled matrix with a strictly increasing
multiple of the identity on the primal block, stop at the first correct inertia or above `DELTA_MAX`. -/
theorem C25_regularisation_loop [Archimedean K] (p : InertiaParams K) (hp : GoodParams p) :
    ∃ N, ∀ (sig : Matrix (Fin n ⊕ Fin m) (Fin n ⊕ Fin m) K → List ℤ)
      (_ : ∀ B, ∀ s ∈ sig B, s = 1 ∨ s = -1 ∨ s = 0)
      (A : Matrix (Fin n ⊕ Fin m) (Fin n ⊕ Fin m) K) (last : K)
      (fac : Option (Matrix (Fin n ⊕ Fin m) (Fin n ⊕ Fin m) K)), ∀ fuel ≥ N,
      ∃ st', inertiaLoop p sig fuel (inertiaStart p A last fac) = some (.ok st') ∧
        CorrectionResult p sig A st' ∧ ((st'.log.map Prod.fst).IsChain fun a b => a = nextDelta p last b) := by
  have hq : 1 < min p.incK p.incBig := lt_min hp.inc hp.big
  have hq0 : (0 : K) < min p.incK p.incBig := one_pos.trans hq
  obtain ⟨δ, hδ, hδ1, hδ2⟩ : ∃ δ : K, 0 < δ ∧ δ ≤ min p.deltaNonzeroInit p.deltaMin ∧
      (0 < p.deltaInit → δ ≤ p.deltaInit) := by
    by_cases hi : 0 < p.deltaInit
    · exact ⟨min p.deltaInit (min p.deltaNonzeroInit p.deltaMin), lt_min hi (lt_min hp.nonzero hp.min),
        min_le_right _ _, fun _ => min_le_left _ _⟩
    · exact ⟨min p.deltaNonzeroInit p.deltaMin, lt_min hp.nonzero hp.min, le_rfl, fun h => absurd h hi⟩
  obtain ⟨N, hN⟩ := pow_unbounded_of_one_lt (p.deltaMax / δ) hq
  rw [div_lt_iff₀' hδ] at hN
  have term : ∀ (sig : Matrix (Fin n ⊕ Fin m) (Fin n ⊕ Fin m) K → List ℤ)
      (_ : ∀ B, ∀ s ∈ sig B, s = 1 ∨ s = -1 ∨ s = 0) (st : InertiaSt K n m), δ ≤ st.delta → st.flag ≠ .ok →
      ∀ fuel ≥ N + 1, ∃ r, inertiaLoop p sig fuel st = some r := by
    intro sig hsig st hle hflag fuel hfuel
    exact inertiaLoop_terminates p hp sig hsig N st (hδ.trans_le hle) hflag
      (hN.trans_le (mul_le_mul_of_nonneg_right hle (pow_nonneg hq0.le _))) fuel hfuel
  refine ⟨N + 2, fun sig hsig A last fac fuel hfuel => ?_⟩
  have hinv := inertiaInv_start p hp sig A last fac
  suffices h : ∃ r, inertiaLoop p sig fuel (inertiaStart p A last fac) = some r by
    obtain ⟨r, hr⟩ := h
    obtain ⟨st', rfl, h1, h2⟩ := inertiaLoop_result p hp sig hsig A last fuel _ hinv r hr
    exact ⟨st', hr, h1, h2⟩
  obtain ⟨k, rfl⟩ : ∃ k, fuel = k + 1 := ⟨fuel - 1, by omega⟩
  rcases hinv.delta.lt_or_eq with hpos | h0
  · exact term sig hsig _ (hδ2 hpos) hinv.flag _ (by omega)
  · -- first pass with `delta = 0`
    by_cases hd : (inertiaStart p A last fac).delta ≤ p.deltaMax
    · obtain ⟨f, hf⟩ := checkInertia_isSome (n := n) (m := m) _
        (hsig (shifted (inertiaStart p A last fac).mat (inertiaStart p A last fac).delta))
      rw [inertiaLoop_succ p sig k _ hinv.flag hd hinv.delta f hf]
      by_cases hok : f = .ok
      · rw [if_pos hok]
        exact ⟨_, rfl⟩
      · have hn := hinv.next hp hd f hok hf
        rw [if_neg hok]
        refine term sig hsig _ ?_ hn.flag k (by omega)
        simp only [nextDelta, ← h0, if_true]
        split_ifs
        · exact hδ1.trans (min_le_left _ _)
        · exact (hδ1.trans (min_le_right _ _)).trans (le_max_left _ _)
    · push Not at hd
      exact ⟨_, inertiaLoop_exit p sig k _ hd⟩

/-! Concrete runs (default parameters, 1 primal and 1 dual variable). -/

/-- The defaults of the solver. -/
def Demo.inertiaDefaults : InertiaParams ℚ :=
  { deltaInit := 0, deltaNonzeroInit := 1 / 10000, deltaMin := 1 / 100000000000000, deltaMax := 1000000,
    decK := 1 / 3, incK := 8, incBig := 100 }

/-- the default settings meet the hypotheses of `C25_regularisation_loop` -/
example : GoodParams Demo.inertiaDefaults := by constructor <;> norm_num [Demo.inertiaDefaults]

/-- signature of a diagonal 1+1 matrix -/
def Demo.sig2 (B : Matrix (Fin 1 ⊕ Fin 1) (Fin 1 ⊕ Fin 1) ℚ) : List ℤ :=
  [SignType.sign (B (.inl 0) (.inl 0)), SignType.sign (B (.inr 0) (.inr 0))].map fun s : SignType => (s : ℤ)

example : ∀ B, ∀ s ∈ Demo.sig2 B, s = 1 ∨ s = -1 ∨ s = 0 := by
  intro B s hs
  simp only [Demo.sig2, List.mem_map] at hs
  obtain ⟨t, _, rfl⟩ := hs
  cases t <;> simp

/-- With a negative primal block, three trials (0, 1e-4, 1e-2) are needed before the inertia is right. -/
example : ∃ st, inertiaLoop Demo.inertiaDefaults Demo.sig2 5
      (inertiaStart Demo.inertiaDefaults (Matrix.fromBlocks !![-1 / 1000] 0 0 !![-1]) 0 none) = some (.ok st) ∧
    st.flag = .ok ∧ st.log.map Prod.fst = [1 / 100, 1 / 10000, 0] := by
  have h : (match inertiaLoop Demo.inertiaDefaults Demo.sig2 5
      (inertiaStart Demo.inertiaDefaults (Matrix.fromBlocks !![-1 / 1000] 0 0 !![-1]) 0 none) with
    | some (.ok st) => decide (st.flag = .ok ∧ st.log.map Prod.fst = [1 / 100, 1 / 10000, 0])
    | _ => false) = true := by decide +kernel
  split at h
  · rename_i st hst
    exact ⟨st, hst, of_decide_eq_true h⟩
  · simp at h

/-- C25, hypothesis `0 ≤ DELTA_INIT` needed: with a negative `DELTA_INIT` the loop leaves the stored KKT matrix
changed (delta is added only if positive but always subtracted). -/
theorem C25_negative_init_false :
    ∃ (p : InertiaParams ℚ) (sig : Matrix (Fin 1 ⊕ Fin 1) (Fin 1 ⊕ Fin 1) ℚ → List ℤ)
      (A : Matrix (Fin 1 ⊕ Fin 1) (Fin 1 ⊕ Fin 1) ℚ) (st : InertiaSt ℚ 1 1),
      inertiaLoop p sig 5 (inertiaStart p A 0 none) = some (.ok st) ∧ st.flag = .ok ∧ st.mat ≠ A := by
  refine ⟨{ Demo.inertiaDefaults with deltaInit := -1 }, Demo.sig2, Matrix.fromBlocks !![1] 0 0 !![-1], _, rfl, ?_, ?_⟩
  · decide +kernel
  · intro h
    have := congrFun (congrFun h (.inl 0)) (.inl 0)
    revert this
    decide +kernel

/-- C25: with `DELTA_INIT > DELTA_MAX` no factorisation happens at all: the step is then computed with whatever
factorisation is left from before. -/
theorem C25_init_above_max (p : InertiaParams K) (sig : Matrix (Fin n ⊕ Fin m) (Fin n ⊕ Fin m) K → List ℤ)
    (A : Matrix (Fin n ⊕ Fin m) (Fin n ⊕ Fin m) K) (last : K)
    (fac : Option (Matrix (Fin n ⊕ Fin m) (Fin n ⊕ Fin m) K)) (h : p.deltaMax < p.deltaInit) (fuel : ℕ) :
    ∃ st, inertiaLoop p sig (fuel + 1) (inertiaStart p A last fac) = some (.ok st) ∧ st.fac = fac ∧ st.log = [] ∧ st.mat = A ∧
      st.deltaLast = last ∧ st.flag ≠ .ok :=
  ⟨_, inertiaLoop_exit p sig fuel _ h, rfl, rfl, rfl, rfl, by simp [inertiaStart]⟩

/-- C25, hypothesis "factors above 1" needed: with both increase factors equal to 1 and a matrix whose inertia is
never right, no number of passes suffices (the solver hangs). -/
theorem C25_factor_one_false : ∀ fuel, inertiaLoop (n := 1) (m := 1)
    { Demo.inertiaDefaults with incK := 1, incBig := 1 } (fun _ => [1, 1]) fuel
    (inertiaStart { Demo.inertiaDefaults with incK := 1, incBig := 1 } 0 0 none) = none := by
  have step : ∀ fuel (st : InertiaSt ℚ 1 1), st.flag ≠ .ok → 0 ≤ st.delta → st.delta ≤ 1 → st.deltaLast = 0 →
      inertiaLoop { Demo.inertiaDefaults with incK := 1, incBig := 1 } (fun _ => [1, 1]) fuel st = none := by
    intro fuel
    induction fuel with
    | zero => intros; rfl
    | succ fuel ih =>
      intro st hf h0 h1 hl
      rw [inertiaLoop_succ _ _ fuel st hf (h1.trans (by norm_num [Demo.inertiaDefaults])) h0 .bad (by decide),
        if_neg (by decide)]
      refine ih _ (by simp) ?_ ?_ hl
      · simp only [nextDelta, hl, if_true]
        split_ifs
        · norm_num [Demo.inertiaDefaults]
        · simpa using h0
      · simp only [nextDelta, hl, if_true]
        split_ifs
        · norm_num [Demo.inertiaDefaults]
        · simpa using h1
  intro fuel
  exact step fuel _ (by simp [inertiaStart]) (by norm_num [inertiaStart, Demo.inertiaDefaults])
    (by norm_num [inertiaStart, Demo.inertiaDefaults]) rfl

/-! ## C27 -/

/-- Residual `-rhs - A s` of the KKT system `A s = -rhs`. -/
def Spec.kktResidual {N : ℕ} (A : Matrix (Fin N) (Fin N) K) (rhs s : Fin N → K) : Fin N → K :=
  -rhs - A.mulVec s

theorem refine_err_eq {N : ℕ} (A : Fin N → Fin N → K) (rhs s : Fin N → K) :
    (fun i => -rhs i - ∑ j, A i j * s j) = kktResidual (Matrix.of A) rhs s := by
  funext i
  simp [kktResidual, Matrix.mulVec, dotProduct]

theorem kktResidual_add {N : ℕ} (A : Matrix (Fin N) (Fin N) K) (rhs s c : Fin N → K) :
    kktResidual A rhs (s + c) = kktResidual A rhs s - A.mulVec c := by
  simp [kktResidual, Matrix.mulVec_add, sub_sub]

theorem refineLoop_true {N : ℕ} (A : Fin N → Fin N → K) (rhs : Fin N → K) (tol : K)
    (solve : (Fin N → K) → Fin N → K) (k : ℕ) (s : Fin N → K) (c : ℕ) :
    (refineLoop A rhs tol solve k s c).1 = true →
      ∀ i, |kktResidual (Matrix.of A) rhs (refineLoop A rhs tol solve k s c).2.1 i| < tol := by
  induction k generalizing s c with
  | zero => simp [refineLoop]
  | succ k ih =>
    simp only [refineLoop]
    split_ifs with h
    · intro _
      rw [refine_err_eq] at h
      exact ((inftyNorm_lt_iff _ _).1 h).2
    · exact ih _ _

/-- C27: `true` is returned only with a step whose residual, in the max norm, is below the tolerance, whatever the
solver does. -/
theorem C27_refinement_sound {N : ℕ} (A : Fin N → Fin N → K) (rhs : Fin N → K) (tol : K)
    (solve : (Fin N → K) → Fin N → K) (maxSteps : ℕ) (s : Fin N → K) (cnt : ℕ)
    (h : iterativeRefinement A rhs tol solve maxSteps = (true, s, cnt)) :
    ∀ i, |kktResidual (Matrix.of A) rhs s i| < tol := by
  have := refineLoop_true A rhs tol solve maxSteps (solve fun i => -rhs i) 1
  unfold iterativeRefinement at h
  rw [h] at this
  exact this rfl

theorem refineLoop_count {N : ℕ} (A : Fin N → Fin N → K) (rhs : Fin N → K) (tol : K)
    (solve : (Fin N → K) → Fin N → K) (k : ℕ) (s : Fin N → K) (c : ℕ) :
    c ≤ (refineLoop A rhs tol solve k s c).2.2 ∧ (refineLoop A rhs tol solve k s c).2.2 ≤ c + k ∧
    ((refineLoop A rhs tol solve k s c).1 = false → (refineLoop A rhs tol solve k s c).2.2 = c + k) := by
  induction k generalizing s c with
  | zero => simp [refineLoop]
  | succ k ih =>
    simp only [refineLoop]
    split_ifs with h
    · simp
    · obtain ⟨h1, h2, h3⟩ := ih (fun i => s i + solve (fun i => -rhs i - ∑ j, A i j * s j) i) (c + 1)
      exact ⟨by omega, by omega, fun h => by have := h3 h; omega⟩

/-- C27: at most `max_refinement_steps` corrections (calls to the solver beyond the first), and `false` only after
all of them. -/
theorem C27_refinement_bounded {N : ℕ} (A : Fin N → Fin N → K) (rhs : Fin N → K) (tol : K)
    (solve : (Fin N → K) → Fin N → K) (maxSteps : ℕ) (ok : Bool) (s : Fin N → K) (cnt : ℕ)
    (h : iterativeRefinement A rhs tol solve maxSteps = (ok, s, cnt)) :
    1 ≤ cnt ∧ cnt ≤ 1 + maxSteps ∧ (ok = false → cnt = 1 + maxSteps) := by
  have := refineLoop_count A rhs tol solve maxSteps (solve fun i => -rhs i) 1
  unfold iterativeRefinement at h
  rw [h] at this
  exact this

theorem inftyNorm_neg' {N : ℕ} (z : Fin N → K) : inftyNorm (fun i => -z i) = inftyNorm z := by
  apply le_antisymm
  · rw [inftyNorm_le_iff]; exact ⟨inftyNorm_nonneg _, fun i => by rw [abs_neg]; exact abs_le_inftyNorm z i⟩
  · rw [inftyNorm_le_iff]
    exact ⟨inftyNorm_nonneg _, fun i => by
      have := abs_le_inftyNorm (fun i => -z i) i
      rwa [abs_neg] at this⟩

theorem refineLoop_contract {N : ℕ} (A : Fin N → Fin N → K) (rhs : Fin N → K) (tol q : K) (hq : 0 ≤ q)
    (solve : (Fin N → K) → Fin N → K)
    (hs : ∀ b, inftyNorm (b - (Matrix.of A).mulVec (solve b)) ≤ q * inftyNorm b)
    (k : ℕ) (s : Fin N → K) (c : ℕ) (hc : inftyNorm (kktResidual (Matrix.of A) rhs s) ≤ q ^ c * inftyNorm rhs) :
    inftyNorm (kktResidual (Matrix.of A) rhs (refineLoop A rhs tol solve k s c).2.1) ≤
      q ^ (refineLoop A rhs tol solve k s c).2.2 * inftyNorm rhs := by
  induction k generalizing s c with
  | zero => simpa [refineLoop] using hc
  | succ k ih =>
    simp only [refineLoop]
    split_ifs with h
    · exact hc
    · apply ih
      rw [refine_err_eq]
      have e : (fun i => s i + solve (kktResidual (Matrix.of A) rhs s) i) =
        s + solve (kktResidual (Matrix.of A) rhs s) := rfl
      rw [e, kktResidual_add]
      refine (hs _).trans ?_
      rw [pow_succ', mul_assoc]
      exact mul_le_mul_of_nonneg_left hc hq

/-- C27: an inexact solver whose relative residual is at most `q`: the returned step has residual at most
`q^cnt * |rhs|` where `cnt` is the number of solves made. -/
theorem C27_refinement_contracts {N : ℕ} (A : Fin N → Fin N → K) (rhs : Fin N → K) (tol q : K) (hq : 0 ≤ q)
    (solve : (Fin N → K) → Fin N → K)
    (hs : ∀ b, inftyNorm (b - (Matrix.of A).mulVec (solve b)) ≤ q * inftyNorm b)
    (maxSteps : ℕ) (ok : Bool) (s : Fin N → K) (cnt : ℕ)
    (h : iterativeRefinement A rhs tol solve maxSteps = (ok, s, cnt)) :
    inftyNorm (kktResidual (Matrix.of A) rhs s) ≤ q ^ cnt * inftyNorm rhs := by
  have := refineLoop_contract A rhs tol q hq solve hs maxSteps (solve fun i => -rhs i) 1 (by
    have := hs fun i => -rhs i
    rw [inftyNorm_neg'] at this
    rw [pow_one]; exact this)
  unfold iterativeRefinement at h
  rw [h] at this
  exact this

/-- C27: such a solver with `q < 1` and a positive tolerance makes the refinement succeed if enough corrections
are allowed. -/
theorem C27_refinement_converges [Archimedean K] {N : ℕ} (A : Fin N → Fin N → K) (rhs : Fin N → K) (tol q : K)
    (htol : 0 < tol) (hq : 0 ≤ q) (hq1 : q < 1) (solve : (Fin N → K) → Fin N → K)
    (hs : ∀ b, inftyNorm (b - (Matrix.of A).mulVec (solve b)) ≤ q * inftyNorm b) :
    ∃ M, ∀ maxSteps ≥ M, ∃ s cnt, iterativeRefinement A rhs tol solve maxSteps = (true, s, cnt) := by
  obtain ⟨M, hM⟩ : ∃ M : ℕ, q ^ M * inftyNorm rhs < tol := by
    rcases (inftyNorm_nonneg rhs).lt_or_eq with hpos | h0
    · obtain ⟨M, hM⟩ := exists_pow_lt_of_lt_one (div_pos htol hpos) hq1
      exact ⟨M, by rwa [lt_div_iff₀ hpos] at hM⟩
    · exact ⟨0, by rw [← h0]; simpa using htol⟩
  -- loop with `k ≥ 1` passes left either succeeds or keeps shrinking
  have key : ∀ k s c, inftyNorm (kktResidual (Matrix.of A) rhs s) ≤ q ^ c * inftyNorm rhs → M < c + k →
      0 < k → (refineLoop A rhs tol solve k s c).1 = true := by
    intro k
    induction k with
    | zero => intro s c _ _ h; exact absurd h (lt_irrefl _)
    | succ k ih =>
      intro s c hc hMc _
      simp only [refineLoop]
      split_ifs with h
      · rfl
      · rw [refine_err_eq] at h
        have hlt : c < M := by
          by_contra hcon
          push Not at hcon
          apply h
          refine lt_of_le_of_lt hc (lt_of_le_of_lt ?_ hM)
          exact mul_le_mul_of_nonneg_right (pow_le_pow_of_le_one hq hq1.le hcon) (inftyNorm_nonneg _)
        apply ih _ _ _ (by omega) (by omega)
        rw [refine_err_eq]
        have e : (fun i => s i + solve (kktResidual (Matrix.of A) rhs s) i) =
          s + solve (kktResidual (Matrix.of A) rhs s) := rfl
        rw [e, kktResidual_add]
        refine (hs _).trans ?_
        rw [pow_succ', mul_assoc]
        exact mul_le_mul_of_nonneg_left hc hq
  refine ⟨M + 1, fun maxSteps hmax => ⟨_, _, Prod.ext ?_ rfl⟩⟩
  refine key maxSteps _ 1 ?_ (by omega) (by omega)
  have := hs fun i => -rhs i
  rw [inftyNorm_neg'] at this
  rw [pow_one]; exact this

/-- C27: with a solver exact for the matrix the returned step solves the system. -/
theorem C27_refinement_exact {N : ℕ} (A : Fin N → Fin N → K) (rhs : Fin N → K) (tol : K)
    (solve : (Fin N → K) → Fin N → K) (hs : ∀ b, (Matrix.of A).mulVec (solve b) = b)
    (maxSteps : ℕ) (ok : Bool) (s : Fin N → K) (cnt : ℕ)
    (h : iterativeRefinement A rhs tol solve maxSteps = (ok, s, cnt)) :
    (Matrix.of A).mulVec s = -rhs ∧ (0 < tol → 0 < maxSteps → ok = true ∧ cnt = 1) := by
  have h1 := C27_refinement_contracts A rhs tol 0 le_rfl solve (fun b => by
    rw [hs b, sub_self, zero_mul]; exact ((inftyNorm_eq_zero_iff (0 : Fin N → K)).2 fun _ => rfl).le) maxSteps ok s cnt h
  have h2 := (C27_refinement_bounded A rhs tol solve maxSteps ok s cnt h).1
  rw [zero_pow (by omega), zero_mul] at h1
  have h3 := (inftyNorm_eq_zero_iff _).1 (le_antisymm h1 (inftyNorm_nonneg _))
  refine ⟨?_, fun htol hmax => ?_⟩
  · funext i
    have := h3 i
    simp only [kktResidual, Pi.sub_apply] at this
    exact (sub_eq_zero.1 this).symm
  · obtain ⟨k, rfl⟩ : ∃ k, maxSteps = k + 1 := ⟨maxSteps - 1, by omega⟩
    have hz : inftyNorm (kktResidual (Matrix.of A) rhs (solve fun i => -rhs i)) < tol := by
      have : kktResidual (Matrix.of A) rhs (solve fun i => -rhs i) = 0 := by
        rw [kktResidual, hs]; funext i; simp
      rw [this, (inftyNorm_eq_zero_iff (0 : Fin N → K)).2 fun _ => rfl]; exact htol
    unfold iterativeRefinement at h
    rw [refineLoop] at h
    simp only [refine_err_eq, if_pos hz, Prod.mk.injEq] at h
    exact ⟨h.1.symm, h.2.2.symm⟩

/-- C27 with a regularised factorisation: the refinement runs against the *unregularised* matrix, so even an exact
solver for `A + delta I` returns `true` with a step that does not solve the regularised system (here `A = 1`,
`delta = 1`, `rhs = 1`: the regularised step is -1/2, the refined one is close to -1). -/
theorem C27_regularised_step_false :
    ∃ s, iterativeRefinement (N := 1) (fun _ _ => (1 : ℚ)) (fun _ => 1) (1 / 10) (fun b i => b i / 2) 5 =
        (true, s, 4) ∧ (∀ b : Fin 1 → ℚ, (!![2] : Matrix (Fin 1) (Fin 1) ℚ).mulVec (fun i => b i / 2) = b) ∧
      (!![2] : Matrix (Fin 1) (Fin 1) ℚ).mulVec s ≠ fun _ => -1 := by
  refine ⟨fun _ => -15 / 16, ?_, ?_, ?_⟩
  · refine Prod.ext (by decide +kernel) (Prod.ext ?_ (by decide +kernel))
    funext i
    fin_cases i
    decide +kernel
  · intro b
    funext i
    fin_cases i
    simp [Matrix.mulVec, dotProduct]
    ring
  · intro h
    have := congrFun h 0
    revert this
    decide +kernel

/-- an inexact solver (scaled Jacobi, `q = 1/2`) meets the hypothesis of the contraction theorems -/
example : ∀ b : Fin 2 → ℚ, inftyNorm (b - (Matrix.of fun i j => if i = j then (2 : ℚ) else 0).mulVec
    (fun i => b i / 4)) ≤ 1 / 2 * inftyNorm b := by
  intro b
  rw [inftyNorm_le_iff]
  refine ⟨mul_nonneg (by norm_num) (inftyNorm_nonneg _), fun i => ?_⟩
  have h := abs_le_inftyNorm b i
  have e : (b - (Matrix.of fun i j => if i = j then (2 : ℚ) else 0).mulVec (fun i => b i / 4)) i = 1 / 2 * b i := by
    simp [Matrix.mulVec, dotProduct]
    ring
  rw [e, abs_mul, abs_of_pos (by norm_num : (0 : ℚ) < 1 / 2)]
  exact mul_le_mul_of_nonneg_left h (by norm_num)

end ProxNLP
