import Verif.Model.Gemmt

/-!
Model of the block triangular solve `/repo/include/proxsuite-nlp/linalg/block-triangular.hpp`.

Simplifications: exact arithmetic (a division by zero yields 0; theorems exclude it); the right-hand side is a matrix with
`w` columns given by its entries; the size of the matrix is assumed to be the sum of the segment lengths, so that the moving
windows `L_cur`, `b_cur` start (lower) or end (upper) at the offsets of the segments. Eigen's dense triangular solves are
forward and backward substitution.
-/

set_option linter.unusedSectionVars false
namespace ProxNLP

open BlockKind

variable {K : Type} [Field K]

/-- Eigen's solve with the (unit) lower triangular view of `M` (called in
block-triangular.hpp:113-140) -/
def fwdSolve (unit : Bool) (n : ℕ) (M : ℕ → ℕ → K) (b : ℕ → K) : ℕ → K :=
  forRange 0 n (fun i x => Function.update x i
    ((x i - ∑ k ∈ Finset.range i, M i k * x k) / (if unit then 1 else M i i))) b

/-- Eigen's solve with the (unit) upper triangular view of `M` (called in
block-triangular.hpp:113-140) -/
def bwdSolve (unit : Bool) (n : ℕ) (M : ℕ → ℕ → K) (b : ℕ → K) : ℕ → K :=
  forRange 0 n (fun t x => Function.update x (n - 1 - t)
    ((x (n - 1 - t) - ∑ k ∈ Finset.range t, M (n - 1 - t) (n - t + k) * x (n - t + k)) /
      (if unit then 1 else M (n - 1 - t) (n - 1 - t)))) b

/-- `block_triangular_subsolve_impl<Mode>::run(L00, b0, kind)` (block-triangular.hpp:112-140) on one column: `none` for
`false`. The triangular kind of the other side falls into `default`, which does nothing. -/
def subsolve (lower unit : Bool) (kind : BlockKind) (n0 : ℕ) (L00 : ℕ → ℕ → K) (b0 : ℕ → K) : Option (ℕ → K) :=
  match kind with
  | zero => none
  | dense => none
  | diag => some (if unit then b0 else fun i => if i < n0 then 1 / L00 i i * b0 i else b0 i)
  | triL => some (if lower then fwdSolve unit n0 L00 b0 else b0)
  | triU => some (if lower then b0 else bwdSolve unit n0 L00 b0)

/-- rows `o .. o + n0 - 1`, columns `0 .. w - 1` of the right-hand side replaced by those of `x`
(the blocks of rows of block-triangular.hpp:69-98) -/
def putRows (o n0 w : ℕ) (b x : ℕ → ℕ → K) : ℕ → ℕ → K := fun r c =>
  if o ≤ r ∧ r < o + n0 ∧ c < w then x (r - o) c else b r c

/-- step 1 of the loop body: solve for `b0` (block-triangular.hpp:69-73) -/
def btDiagonal (lower unit : Bool) (s : Sym) (M : ℕ → ℕ → K) (w i : ℕ) (b : ℕ → ℕ → K) : Option (ℕ → ℕ → K) :=
  let o := blockStart s i
  let solve := subsolve lower unit (s.kinds i i) (s.lens i) fun r c => M (o + r) (o + c)
  if (solve fun _ => 0).isNone then none
  else some (putRows o (s.lens i) w b fun r c => ((solve fun r => b (o + r) c).getD fun _ => 0) r)

/-- step 2, one block: `dst -= L(p, i) * b0` by `gemmt` (block-triangular.hpp:86-97) -/
def btBlock (s : Sym) (M : ℕ → ℕ → K) (w i p : ℕ) (b : ℕ → ℕ → K) : ℕ → ℕ → K :=
  let o := blockStart s i
  let op := blockStart s p
  putRows op (s.lens p) w b
    (gemmt (s.kinds p i) dense (s.lens p) (s.lens i) w (-1) (fun r c => M (op + r) (o + c)) (fun c r => b (o + r) c)
      fun r c => b (op + r) c)

/-- step 2 (block-triangular.hpp:75-98) -/
def btUpdate (lower useGemm : Bool) (s : Sym) (M : ℕ → ℕ → K) (w i : ℕ) (b : ℕ → ℕ → K) : ℕ → ℕ → K :=
  if useGemm then
    if lower then forRange (i + 1) (s.n - (i + 1)) (btBlock s M w i) b else forRange 0 i (btBlock s M w i) b
  else
    let o := blockStart s i
    fun r c =>
      if (if lower then o + s.lens i ≤ r ∧ r < blockStart s s.n else r < o) ∧ c < w then
        b r c - ∑ k ∈ Finset.range (s.lens i), M r (o + k) * b (o + k) c
      else b r c

/-- the loop over the segments (block-triangular.hpp:44-99), in the given order -/
def btLoop (lower unit useGemm : Bool) (s : Sym) (M : ℕ → ℕ → K) (w : ℕ) : List ℕ → (ℕ → ℕ → K) → Bool × (ℕ → ℕ → K)
  | [], b => (true, b)
  | i :: is, b =>
    match btDiagonal lower unit s M w i b with
    | none => (false, b)
    | some b => btLoop lower unit useGemm s M w is (btUpdate lower useGemm s M w i b)

/-- `TriangularBlockMatrix<Matrix, Mode>(mat, structure).solveInPlace(bAndX)` (block-triangular.hpp:30-104), for `Mode` one of
`Lower, UnitLower, Upper, UnitUpper` -/
def btSolve (lower unit useGemm : Bool) (s : Sym) (M : ℕ → ℕ → K) (w : ℕ) (b : ℕ → ℕ → K) : Bool × (ℕ → ℕ → K) :=
  btLoop lower unit useGemm s M w (if lower then List.range s.n else (List.range s.n).reverse) b

end ProxNLP
