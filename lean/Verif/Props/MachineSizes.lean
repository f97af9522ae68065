import Verif.Model.MachineSizes
import Verif.Model.Problem
import Verif.Model.BlockKind
import Mathlib.Algebra.BigOperators.Group.List.Basic
import Mathlib.Data.Int.ModEq
import Mathlib.Algebra.Field.Rat
import Mathlib.Tactic.Linarith

/-!
# C128: the sizes of a problem and of the linear solver, in machine integers
-/

namespace ProxNLP

private lemma dimsLoop (nrs : List ℕ) : ∀ (ncs indices : List ℤ) (c : ℕ), c < 2 ^ 31 →
    machineDimsLoop (nrs.map fun k : ℕ => (k : ℤ)) ncs indices c =
      if c + nrs.sum < 2 ^ 31 then
        some (ncs ++ nrs.map fun k : ℕ => (k : ℤ), indices ++ (List.range nrs.length).map fun i => ((c + (nrs.take i).sum : ℕ) : ℤ),
          ((c + nrs.sum : ℕ) : ℤ))
      else none := by
  induction nrs with
  | nil => intro ncs indices c hc; rw [if_pos (by simpa using hc)]; simp [machineDimsLoop]
  | cons k nrs ih =>
    intro ncs indices c hc
    rw [List.map_cons, machineDimsLoop, intAdd]
    by_cases hk : c + k < 2 ^ 31
    · rw [if_pos ⟨by omega, by omega⟩, Option.bind_some]
      have := ih (ncs ++ [(k : ℤ)]) (indices ++ [(c : ℤ)]) (c + k) hk
      rw [Nat.cast_add] at this
      rw [this]
      simp only [List.sum_cons, ← Nat.add_assoc]
      split
      · simp only [List.append_assoc, List.singleton_append, List.length_cons, List.range_succ_eq_map, List.map_cons, List.take_zero,
          List.sum_nil, Nat.add_zero, List.map_map, Function.comp_def, List.take_succ_cons, List.sum_cons, Nat.add_assoc]
      · rfl
    · rw [if_neg (by omega), Option.bind_none, if_neg (by simp only [List.sum_cons]; omega)]

/-- **C128, problems**: adding up the constraint sizes is defined exactly when their total is below `2^31`, and then the sizes, the first
row of every constraint and the total are the true ones. -/
theorem C128_problem (nrs : List ℕ) :
    (nrs.sum < 2 ^ 31 → ∃ ncs indices total, machineDims (nrs.map fun k : ℕ => (k : ℤ)) = some (ncs, indices, total) ∧
      total = (nrs.sum : ℕ) ∧ ncs = (nrs.map fun k : ℕ => (k : ℤ)) ∧ indices.length = nrs.length ∧
      ∀ i < nrs.length, indices[i]? = some (((nrs.take i).sum : ℕ) : ℤ)) ∧
    (2 ^ 31 ≤ nrs.sum → machineDims (nrs.map fun k : ℕ => (k : ℤ)) = none) := by
  have h := dimsLoop nrs [] [] 0 (by norm_num)
  simp only [Nat.cast_zero, Nat.zero_add, List.nil_append] at h
  constructor
  · intro hs
    rw [if_pos hs] at h
    exact ⟨_, _, _, h, rfl, rfl, by simp, fun i hi => by simp [hi]⟩
  · intro hs
    rw [if_neg (by omega)] at h
    exact h

private lemma foldl_dims {X K : Type} {n : ℕ} (cs : List (CstrFun X K n)) : ∀ a : List ℕ × List ℕ × ℕ,
    (cs.foldl (fun (acc : List ℕ × List ℕ × ℕ) cstr => (acc.1 ++ [cstr.nr], acc.2.1 ++ [acc.2.2], acc.2.2 + cstr.nr)) a).2.2 =
      a.2.2 + (cs.map CstrFun.nr).sum ∧
    (cs.foldl (fun (acc : List ℕ × List ℕ × ℕ) cstr => (acc.1 ++ [cstr.nr], acc.2.1 ++ [acc.2.2], acc.2.2 + cstr.nr)) a).2.1 =
      a.2.1 ++ (List.range cs.length).map fun i => a.2.2 + ((cs.map CstrFun.nr).take i).sum := by
  induction cs with
  | nil => intro a; simp
  | cons c cs ih =>
    intro a
    obtain ⟨h1, h2⟩ := ih (a.1 ++ [c.nr], a.2.1 ++ [a.2.2], a.2.2 + c.nr)
    refine ⟨?_, ?_⟩
    · rw [List.foldl_cons, h1]; simp [Nat.add_assoc]
    · rw [List.foldl_cons, h2]
      simp [List.range_succ_eq_map, Function.comp_def, Nat.add_assoc]

/-- ... so a problem whose total dimension is below `2^31` has the dimensions that the rest of the model computes with natural numbers. -/
theorem C128_problem_refines {X K : Type} {n : ℕ} (cs : List (CstrFun X K n)) (hs : (cs.map CstrFun.nr).sum < 2 ^ 31) :
    ∃ ncs indices, machineDims ((cs.map CstrFun.nr).map fun k : ℕ => (k : ℤ)) =
      some (ncs, indices, (((Problem.new cs).getTotalConstraintDim : ℕ) : ℤ)) ∧
      ∀ i < cs.length, indices[i]? = ((Problem.new cs).getIndex i).map fun k : ℕ => (k : ℤ) := by
  obtain ⟨ncs, indices, total, h1, h2, -, -, h5⟩ := (C128_problem (cs.map CstrFun.nr)).1 hs
  obtain ⟨e1, e2⟩ := foldl_dims cs ([], [], 0)
  have e3 : (Problem.new cs).getTotalConstraintDim = (cs.map CstrFun.nr).sum := e1.trans (by simp)
  refine ⟨ncs, indices, by rw [h1, h2, e3], fun i hi => ?_⟩
  have e4 : (Problem.new cs).getIndex i = some ((cs.map CstrFun.nr).take i).sum := by
    refine (congrArg (fun l : List ℕ => l[i]?) e2).trans ?_
    simp [hi]
  rw [h5 i (by simpa using hi), e4]
  rfl

private lemma toInt32_small {z : ℤ} (h0 : 0 ≤ z) (h1 : z < 2 ^ 31) : toInt32 z = z := by
  unfold toInt32
  rw [Int.bmod_eq_of_le] <;> omega

private lemma accumulate_small (v : List ℕ) : ∀ a : ℕ, a + v.sum < 2 ^ 31 →
    (v.map fun k : ℕ => (k : ℤ)).foldl (fun acc x => toInt32 (acc + x)) (a : ℤ) = ((a + v.sum : ℕ) : ℤ) := by
  induction v with
  | nil => intro a _; simp
  | cons k v ih =>
    intro a h
    simp only [List.sum_cons] at h
    rw [List.map_cons, List.foldl_cons, toInt32_small (by omega) (by omega), ← Nat.cast_add, ih (a + k) (by omega)]
    simp [Nat.add_assoc]

private lemma accumulate_modEq (v : List ℤ) : ∀ a : ℤ, v.foldl (fun acc x => toInt32 (acc + x)) a ≡ a + v.sum [ZMOD 2 ^ 32] := by
  induction v with
  | nil => intro a; simp
  | cons k v ih =>
    intro a
    rw [List.foldl_cons, List.sum_cons, ← add_assoc]
    refine (ih _).trans (Int.ModEq.add_right _ ?_)
    exact Int.bmod_emod

/-- **C128, linear solver**: the size with which the linear solver is allocated is the total of the primal and dual sizes whenever this is
below `2^31`: the size of the rest of the model. -/
theorem C128_solver_size (nprims nduals : List ℕ) (h : nprims.sum + nduals.sum < 2 ^ 31) :
    machineTotal (nprims.map fun k : ℕ => (k : ℤ)) (nduals.map fun k : ℕ => (k : ℤ)) = some ((nprims.sum + nduals.sum : ℕ) : ℤ) ∧
    totalDim nprims nduals = nprims.sum + nduals.sum := by
  have h1 := accumulate_small nprims 0 (by omega)
  have h2 := accumulate_small nduals 0 (by omega)
  simp only [Nat.cast_zero, Nat.zero_add] at h1 h2
  refine ⟨?_, by simp [totalDim, List.sum_eq_foldl]⟩
  rw [machineTotal, accumulateInt, accumulateInt, h1, h2, intAdd, if_pos ⟨by omega, by omega⟩, Nat.cast_add]

/-- **C128, beyond**: without that bound the size is only right modulo `2^32`. -/
theorem C128_solver_size_mod (nprims nduals : List ℤ) (v : ℤ) (h : machineTotal nprims nduals = some v) :
    v ≡ nprims.sum + nduals.sum [ZMOD 2 ^ 32] := by
  unfold machineTotal intAdd at h
  split at h
  · cases h
    have h1 := accumulate_modEq nprims 0
    have h2 := accumulate_modEq nduals 0
    simp only [zero_add] at h1 h2
    exact h1.add h2
  · cases h

/-- A problem with constraints of sizes 3, 0, 4, and a linear solver for 5 variables. -/
example : machineDims [3, 0, 4] = some ([3, 0, 4], [0, 3, 3], 7) ∧ machineTotal [5] [3, 0, 4] = some 12 := by decide +kernel

/-- **What the 64-bit arguments suggest and does not hold**: `allocate_ldlt_from_sizes` takes 64-bit sizes, but a size of `2^32` gives a
linear solver of size 0, and `2^31` a negative size, both without an error. Two constraints of `2^30` rows overflow the `int` of the
problem. -/
theorem C128_large_false : machineTotal [2 ^ 32] [] = some 0 ∧ machineTotal [2 ^ 31] [] = some (-2 ^ 31) ∧
    machineDims [2 ^ 30, 2 ^ 30] = none := by decide +kernel

end ProxNLP
