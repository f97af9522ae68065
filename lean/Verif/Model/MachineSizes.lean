import Mathlib.Data.Int.Order.Basic
import Mathlib.Algebra.Order.Ring.Int

/-!
# Dimensions are 32-bit integers

Elsewhere in the model dimensions are natural numbers. Here the two places that add them up are modelled with the integer types of the
code: `int` has 32 bits, `Eigen::Index` 64 bits and is not exhausted.
-/

namespace ProxNLP

/-- `a + b` of two `int`s; `none`: the result does not fit, which is undefined behaviour in C++. problem-base.hpp:124,
ldlt-allocator.hpp:97 -/
def intAdd (a b : ℤ) : Option ℤ := if -2 ^ 31 ≤ a + b ∧ a + b < 2 ^ 31 then some (a + b) else none

/-- Conversion of an `Eigen::Index` to `int`: modulo `2^32`. ldlt-allocator.hpp:97-98 (the assignment inside `std::accumulate`) -/
def toInt32 (z : ℤ) : ℤ := Int.bmod z (2 ^ 32)

/-- The loop of `reset_constraint_dim_vars()` with its `int` cursor: sizes, first rows, and the cursor at the end.
problem-base.hpp:114-127 -/
def machineDimsLoop : List ℤ → List ℤ → List ℤ → ℤ → Option (List ℤ × List ℤ × ℤ)
  | [], ncs, indices, cursor => some (ncs, indices, cursor)
  | nr :: rest, ncs, indices, cursor =>
    (intAdd cursor nr).bind fun c => machineDimsLoop rest (ncs ++ [nr]) (indices ++ [cursor]) c

/-- `reset_constraint_dim_vars()`: `ncs_`, `indices_`, `nc_total_`. problem-base.hpp:114-127 -/
def machineDims (nrs : List ℤ) : Option (List ℤ × List ℤ × ℤ) := machineDimsLoop nrs [] [] 0

/-- `std::accumulate(v.begin(), v.end(), 0)` over a vector of `Eigen::Index`: the literal `0` makes the accumulator an `int`, the sum is
computed with 64 bits and converted back in every step. ldlt-allocator.hpp:97-98 -/
def accumulateInt (v : List ℤ) : ℤ := v.foldl (fun acc x => toInt32 (acc + x)) 0

/-- `get_total_dim_helper(nprims, nduals)`: the sum of two `int`s. ldlt-allocator.hpp:95-99 -/
def machineTotal (nprims nduals : List ℤ) : Option ℤ := intAdd (accumulateInt nprims) (accumulateInt nduals)

end ProxNLP
