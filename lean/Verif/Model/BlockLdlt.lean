import Verif.Model.BlockTri
import Verif.Model.BlockPerm
import Verif.Model.DenseLdlt
import Verif.Model.Signature

/-!
Model of the block LDLT factorisation `/repo/include/proxsuite-nlp/linalg/block-ldlt.hpp` and `block-ldlt.hxx`.

Simplifications: exact arithmetic (a division by zero yields 0; theorems exclude it); matrices are functions of their indices
together with their size; sub-blocks (`MatrixRef`) are shifted functions and results are written back; an assignment to a
whole block is one simultaneous update. The work area `work_tr` is the block right of the pivot, which shares no entry with
any block read or written by the products, so the products see the values stored before.
-/

set_option linter.unusedSectionVars false
namespace ProxNLP

open BlockKind

variable {K : Type} [Field K] [LinearOrder K]

/-- positions of a block written by an assignment to the block, to its upper triangular view, or
to its diagonal (the assignments of block-ldlt.hpp:60-134) -/
def onPart : BlockKind → ℕ → ℕ → Bool
  | zero, _, _ => false
  | diag, r, c => decide (r = c)
  | triL, r, c => decide (c ≤ r)
  | triU, r, c => decide (r ≤ c)
  | dense, _, _ => true

/-- `l00.triangularView<UnitLower>().solveInPlace(li0.transpose())` (block-ldlt.hpp:74-75, 83-84): `li0` are the rows
`o .. o + bsi - 1`, columns `0 .. bs - 1` -/
def bldSolve (bs bsi o : ℕ) (M : ℕ → ℕ → K) : ℕ → ℕ → K := fun i c =>
  if o ≤ i ∧ i < o + bsi ∧ c < bs then fwdUnit bs M (fun c => M i c) c else M i c

/-- `li0_copy = li0` on a part (block-ldlt.hpp:76, 85, 113, 118, 123): the copy is stored transposed, right of the pivot -/
def bldCopy (part : BlockKind) (bs bsi o : ℕ) (M : ℕ → ℕ → K) : ℕ → ℕ → K := fun i c =>
  if i < bs ∧ o ≤ c ∧ c < o + bsi ∧ onPart part (c - o) i then M c i else M i c

/-- `li0 = li0 * d0_inv` on a part (block-ldlt.hpp:77, 86, 114, 119, 124) -/
def bldScale (part : BlockKind) (bs bsi o : ℕ) (M : ℕ → ℕ → K) : ℕ → ℕ → K := fun i c =>
  if o ≤ i ∧ i < o + bsi ∧ c < bs ∧ onPart part (i - o) c then M i c * (1 / M c c) else M i c

/-- the part on which block `(i, 0)` is copied and scaled: below a dense pivot a block declared diagonal is treated as dense
(block-ldlt.hpp:80-88) -/
def bldPart (pivot kind : BlockKind) : BlockKind := if pivot = triL ∧ kind = diag then dense else kind

/-- the body of the loops over the blocks `(i, 0)` (block-ldlt.hpp:58-93 for a dense pivot, 103-130 for a diagonal one);
`none` is `return false` -/
def bldBlock (pivot kind : BlockKind) (bs bsi o : ℕ) (M : ℕ → ℕ → K) : Option (ℕ → ℕ → K) :=
  match kind with
  | zero => some M
  | triL => none
  | k =>
    let M := if pivot = triL then bldSolve bs bsi o M else M
    some (bldScale (bldPart pivot k) bs bsi o (bldCopy (bldPart pivot k) bs bsi o M))

/-- the loop over the blocks `(1, 0), …, (m, 0)`, in order; the flag tells whether it ran to the
end (block-ldlt.hpp:60-93 and 104-134) -/
def bldColumn (lens : ℕ → ℕ) (kinds : ℕ → ℕ → BlockKind) : ℕ → (ℕ → ℕ → K) → Bool × (ℕ → ℕ → K)
  | 0, M => (true, M)
  | m + 1, M =>
    match bldColumn lens kinds m M with
    | (false, M) => (false, M)
    | (true, M) =>
      match bldBlock (kinds 0 0) (kinds (m + 1) 0) (lens 0) (lens (m + 1)) (forRange 0 (m + 1) (fun k acc => acc + lens k) 0) M with
      | none => (false, M)
      | some M => (true, M)

/-- `gemmt(target_ji, lj0, li0_prev, kind(j,0), kind(i,0), -1)` (block-ldlt.hpp:148-151 for `j = i`, 162-163) -/
def bldTarget (lens : ℕ → ℕ) (kinds : ℕ → ℕ → BlockKind) (i j : ℕ) (M : ℕ → ℕ → K) : ℕ → ℕ → K :=
  let oi := forRange 0 i (fun k acc => acc + lens k) 0
  let oj := forRange 0 j (fun k acc => acc + lens k) 0
  let X := gemmt (kinds j 0) (kinds i 0) (lens j) (lens 0) (lens i) (-1) (fun r c => M (oj + r) c) (fun r c => M c (oi + r))
    fun r c => M (oj + r) (oi + c)
  fun r c => if oj ≤ r ∧ r < oj + lens j ∧ oi ≤ c ∧ c < oi + lens i then X (r - oj) (c - oi) else M r c

/-- the update of `l11` (block-ldlt.hpp:136-172), `n` blocks -/
def bldSchur (n : ℕ) (lens : ℕ → ℕ) (kinds : ℕ → ℕ → BlockKind) (M : ℕ → ℕ → K) : ℕ → ℕ → K :=
  forRange 1 (n - 1) (fun i M => forRange (i + 1) (n - (i + 1)) (bldTarget lens kinds i) (bldTarget lens kinds i i M)) M

/-- the pivot block (block-ldlt.hpp:53, 97-100) and the sign afterwards; only called for the kinds `TriL`, `Diag` -/
def bldPivot (pivot : BlockKind) (bs : ℕ) (M : ℕ → ℕ → K) (sign : SignMat) : (ℕ → ℕ → K) × SignMat :=
  if pivot = triL then
    let r := denseLdlt bs M sign
    (writeDiagBlock 0 bs M r.1, r.2)
  else (M, forRange 0 bs (fun k s => updateSign s (M k k)) sign)

/-- `ldlt_in_place_impl` (block-ldlt.hpp:27-178) after the test of `performed_llt`, on a matrix of size `N` with `n` blocks -/
def blockLdlt : ℕ → ℕ → (ℕ → ℕ) → (ℕ → ℕ → BlockKind) → (ℕ → ℕ → K) → SignMat → Bool × (ℕ → ℕ → K) × SignMat
  | 0, _, _, _, M, sign => (true, M, sign)
  | n + 1, N, lens, kinds, M, sign =>
    if N ≤ 1 then (true, M, sign)
    else if kinds 0 0 ≠ triL ∧ kinds 0 0 ≠ diag then (false, M, sign)
    else
      let p := bldPivot (kinds 0 0) (lens 0) M sign
      match bldColumn lens kinds n p.1 with
      | (false, M) => (false, M, p.2)
      | (true, M) =>
        let M := bldSchur (n + 1) lens kinds M
        let r := blockLdlt n (N - lens 0) (fun i => lens (i + 1)) (fun i j => kinds (i + 1) (j + 1))
          (fun i c => M (lens 0 + i) (lens 0 + c)) p.2
        (r.1, writeDiagBlock (lens 0) (N - lens 0) M r.2.1, r.2.2)

/-! ### the object -/

/-- State of a `BlockLDLT` object: analysis, matrix, sign, `info` (`true` for `Success`).
block-ldlt.hpp:212-221. -/
structure BlockObj (K : Type) where
  an : BlockAnalysis
  n : ℕ
  mat : ℕ → ℕ → K
  sign : SignMat
  info : Option Bool

/-- the constructor (block-ldlt.hpp:228-235) -/
def BlockObj.init (size : ℕ) (s : Sym) : BlockObj K :=
  { an := BlockAnalysis.init size s, n := size, mat := fun _ _ => 0, sign := .zeroSign, info := none }

/-- `compute(mat)` (block-ldlt.hpp:312-344) on a matrix of size `n` -/
def BlockObj.compute (o : BlockObj K) (n : ℕ) (A : ℕ → ℕ → K) : BlockObj K :=
  let M := permuteInput o.an.indices A o.mat
  let s := o.an.struct
  if s.performed then
    let r := blockLdlt s.n n s.lens s.kinds M o.sign
    { o with n, mat := r.2.1, sign := r.2.2, info := some r.1 }
  else { o with n, mat := M, info := some false }

/-- `vectorD()` (block-ldlt.hpp:295-297) -/
def BlockObj.vectorD (o : BlockObj K) : ℕ → K := fun i => o.mat i i

/-- `solveInPlace(b)` (block-ldlt.hxx:72-98) on `w` right-hand sides; `tiny` is `numeric_limits<Scalar>::min()` -/
def BlockObj.solve (tiny : K) (o : BlockObj K) (w : ℕ) (b : ℕ → ℕ → K) : Bool × (ℕ → ℕ → K) :=
  let b := fun r c => permTrMul o.an.indices (fun r => b r c) r
  let r0 := btSolve true true true o.an.struct o.mat w b
  let b := fun r c => if r < o.n then scaleByD tiny o.mat (fun r => r0.2 r c) r else r0.2 r c
  let r1 := btSolve false true true o.an.structTr (fun i j => o.mat j i) w b
  (r0.1 || r1.1, fun r c => permMul o.an.indices (fun r => r1.2 r c) r)

/-- `reconstructedMatrix()` (block-ldlt.hxx:60-70): the lower half is mirrored, `L D L^T` formed and permuted back -/
def BlockObj.reconstruct (o : BlockObj K) : ℕ → ℕ → K :=
  let R := denseReconstruct o.n (matCoeff o.mat) fun i j => if i = j then 1 else 0
  fun i j => R (o.an.indices.idxOf i) (o.an.indices.idxOf j)

/-- the signature handed to the inertia check (ldlt-allocator.hpp:184-187) -/
def BlockObj.signature (o : BlockObj K) : List ℤ := (List.range o.n).map fun k => cwiseSign (o.vectorD k)

end ProxNLP
