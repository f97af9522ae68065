import Verif.Model.Signature

/-!
Model of the Bunch-Kaufman factorisation `/repo/include/proxsuite-nlp/linalg/bunchkaufman.hpp` and of the signature computed
from it (ldlt-allocator.hpp:136-194).

Simplifications: real scalars (an ordered field, so `conj`, `real` are the identity), exact arithmetic; matrices and vectors
are functions of their indices together with their size; whole-segment assignments and swaps, and loops whose passes touch
disjoint entries, are one simultaneous update. `alpha` stands for `(1 + sqrt(17)) / 8`. `maxCoeff` returns the first
position of the maximum. `pivot_count` (never read) is left out.
-/

set_option linter.unusedSectionVars false
namespace ProxNLP

variable {K : Type} [Field K] [LinearOrder K]

/-- `v.cwiseAbs().maxCoeff(&index)` on the vector `f 0 … f (len-1)`, `len > 0`: index and value
(bunchkaufman.hpp:51, 64-70, 202, 227-233) -/
def maxAbs (f : ℕ → K) (len : ℕ) : ℕ × K :=
  forRange 1 (len - 1) (fun i b => if b.2 < |f i| then (i, |f i|) else b) (0, |f 0|)

/-- matrix and `pivots` array (arguments of bunchkaufman.hpp:20-23) -/
structure BkSt (K : Type) where
  a : ℕ → ℕ → K
  piv : ℕ → ℤ

/-- `imax` and `colmax` (bunchkaufman.hpp:46-53): largest entry of column `k` below the diagonal; `col i` is entry `i` of
the column -/
def bkColMax (n k : ℕ) (col : ℕ → K) : ℕ × K :=
  let m := if k + 1 < n then maxAbs (fun i => col (k + 1 + i)) (n - k - 1) else (0, 0)
  (m.1 + (k + 1), m.2)

/-- `rowmax` (bunchkaufman.hpp:62-71): largest off-diagonal entry of row `imax` of the trailing matrix; `row i` is the entry
in column `i` -/
def bkRowMax (n k imax : ℕ) (row : ℕ → K) : K :=
  let r := if 0 < imax - k then (maxAbs (fun j => row (k + j)) (imax - k)).2 else 0
  if 0 < n - imax - 1 then max r (maxAbs (fun i => row (imax + 1 + i)) (n - imax - 1)).2 else r

/-- Pivot choice (bunchkaufman.hpp:44-81 and 197-244): `none` for `NumericalIssue`, otherwise `kp` and whether `k_step = 2`.
`col` is column `k` and `row i` row `i` of the (updated) trailing matrix. -/
def bkChoose (alpha : K) (n k : ℕ) (col : ℕ → K) (row : ℕ → ℕ → K) : Option (ℕ × Bool) :=
  let absAkk := |col k|
  let imax := (bkColMax n k col).1
  let colmax := (bkColMax n k col).2
  if max absAkk colmax = 0 then none
  else if colmax * alpha ≤ absAkk then some (k, false)
  else
    let rowmax := bkRowMax n k imax (row imax)
    if (alpha * colmax) * (colmax / rowmax) ≤ absAkk then some (k, false)
    else if alpha * rowmax ≤ |row imax imax| then some (imax, false)
    else some (imax, true)

/-- row `i` of the symmetric matrix whose lower half is stored (bunchkaufman.hpp:62-72 and
211-226) -/
def symRow (a : ℕ → ℕ → K) (i : ℕ) : ℕ → K := fun j => if j ≤ i then a i j else a j i

/-- `a.col(kk).segment(kp + 1, …).swap(a.col(kp).segment(kp + 1, …))` (bunchkaufman.hpp:86-88) -/
def bkSwapCols (n kk kp : ℕ) (a : ℕ → ℕ → K) : ℕ → ℕ → K := fun i c =>
  if kp < i ∧ i < n then (if c = kk then a i kp else if c = kp then a i kk else a i c) else a i c

/-- the loop exchanging `a(j, kk)` and `a(kp, j)` for `kk < j < kp` (bunchkaufman.hpp:90-94) -/
def bkSwapMid (kk kp : ℕ) (a : ℕ → ℕ → K) : ℕ → ℕ → K := fun i c =>
  if c = kk ∧ kk < i ∧ i < kp then a kp i else if i = kp ∧ kk < c ∧ c < kp then a c kk else a i c

/-- `swap(a(kk, kk), a(kp, kp))` (bunchkaufman.hpp:96) -/
def bkSwapDiag (kk kp : ℕ) (a : ℕ → ℕ → K) : ℕ → ℕ → K := fun i c =>
  if i = kk ∧ c = kk then a kp kp else if i = kp ∧ c = kp then a kk kk else a i c

/-- `swap(a(k + 1, k), a(kp, k))` (bunchkaufman.hpp:98-100) -/
def bkSwapLead (k kp : ℕ) (a : ℕ → ℕ → K) : ℕ → ℕ → K := fun i c =>
  if i = k + 1 ∧ c = k then a kp k else if i = kp ∧ c = k then a (k + 1) k else a i c

/-- the interchange (bunchkaufman.hpp:83-101) of rows and columns `kk = k + k_step - 1` and `kp` -/
def bkSwap (n k : ℕ) (two : Bool) (kp : ℕ) (a : ℕ → ℕ → K) : ℕ → ℕ → K :=
  let kk := if two then k + 1 else k
  if kp = kk then a
  else
    let a := bkSwapDiag kk kp (bkSwapMid kk kp (bkSwapCols n kk kp a))
    if two then bkSwapLead k kp a else a

/-- elimination with a 1x1 pivot (bunchkaufman.hpp:103-120) -/
def bkElim1 (n k : ℕ) (a : ℕ → ℕ → K) : ℕ → ℕ → K :=
  let d11 := 1 / a k k
  fun i c =>
    if i = k ∧ c = k then d11
    else if k < c ∧ c ≤ i ∧ i < n then a i c - a c k * d11 * a i k
    else if c = k ∧ k < i ∧ i < n then a i k * d11
    else a i c

/-- `d11, d22, d21, d` of a 2x2 pivot with entries `a(k,k)`, `a(k+1,k)`, `a(k+1,k+1)` (bunchkaufman.hpp:122-130) -/
def bkD (akk akp1k akp1 : K) : K × K × K × K :=
  let d21Inv := 1 / |akp1k|
  let d11 := d21Inv * akp1
  let d22 := d21Inv * akk
  let t := 1 / (d11 * d22 - 1)
  (d11, d22, akp1k * d21Inv, t * d21Inv)

/-- `wk` of row entries `x = a(j,k)`, `y = a(j,k+1)` (bunchkaufman.hpp:136) -/
def bkWk (D : K × K × K × K) (x y : K) : K := ((x * D.1) - (y * D.2.2.1)) * D.2.2.2

/-- `wkp1` (bunchkaufman.hpp:137-138) -/
def bkWkp1 (D : K × K × K × K) (x y : K) : K := ((y * D.2.1) - (x * D.2.2.1)) * D.2.2.2

/-- elimination with a 2x2 pivot (bunchkaufman.hpp:121-149) -/
def bkElim2 (n k : ℕ) (a : ℕ → ℕ → K) : ℕ → ℕ → K :=
  let D := bkD (a k k) (a (k + 1) k) (a (k + 1) (k + 1))
  let a := fun i c =>
    if i = k ∧ c = k then D.1 * D.2.2.2
    else if i = k + 1 ∧ c = k then -D.2.2.1 * D.2.2.2
    else if i = k + 1 ∧ c = k + 1 then D.2.1 * D.2.2.2
    else a i c
  forRange (k + 2) (n - (k + 2)) (fun j a =>
    let wk := bkWk D (a j k) (a j (k + 1))
    let wkp1 := bkWkp1 D (a j k) (a j (k + 1))
    fun i c =>
      if c = j ∧ j ≤ i ∧ i < n then a i j - (a i k * wk + a i (k + 1) * wkp1)
      else if i = j ∧ c = k then wk
      else if i = j ∧ c = k + 1 then wkp1
      else a i c) a

/-- `pivots[k] = kp`, or `pivots[k] = pivots[k+1] = -1 - kp` (bunchkaufman.hpp:156-161) -/
def bkSetPiv (k : ℕ) (two : Bool) (kp : ℕ) (piv : ℕ → ℤ) : ℕ → ℤ :=
  if two then fun i => if i = k ∨ i = k + 1 then -1 - (kp : ℤ) else piv i else fun i => if i = k then (kp : ℤ) else piv i

/-- one pass of the loop of `bunch_kaufman_in_place_unblocked` once the pivot is chosen (bunchkaufman.hpp:83-163) -/
def bkStep (n k : ℕ) (two : Bool) (kp : ℕ) (s : BkSt K) : BkSt K :=
  let a := bkSwap n k two kp s.a
  { a := if two then bkElim2 n k a else bkElim1 n k a, piv := bkSetPiv k two kp s.piv }

/-- the loop of `bunch_kaufman_in_place_unblocked` from column `k` (bunchkaufman.hpp:43-164); `false` for `NumericalIssue` -/
def bkLoop (alpha : K) (n : ℕ) (k : ℕ) (s : BkSt K) : Bool × BkSt K :=
  if k < n then
    match bkChoose alpha n k (fun i => s.a i k) (symRow s.a) with
    | none => (false, s)
    | some (kp, two) => bkLoop alpha n (if two then k + 2 else k + 1) (bkStep n k two kp s)
  else (true, s)
termination_by n - k
decreasing_by split <;> omega

/-- `bunch_kaufman_in_place_unblocked(a, pivots, pivot_count)` (bunchkaufman.hpp:20-167) -/
def bkUnblocked (alpha : K) (n : ℕ) (s : BkSt K) : Bool × BkSt K :=
  if n = 0 then (true, s)
  else if n = 1 then
    if |s.a 0 0| = 0 then (false, s) else (true, { s with a := fun i c => if i = 0 ∧ c = 0 then 1 / s.a 0 0 else s.a i c })
  else bkLoop alpha n 0 s

/-! ### the blocked version -/

/-- swap of the rows `p` and `q` in the columns below `m`: `a.row(p).segment(0,
m).swap(a.row(q).segment(0, m))` (bunchkaufman.hpp:258-259, 336, 409-412) -/
def swapRows (m p q : ℕ) (a : ℕ → ℕ → K) : ℕ → ℕ → K := fun i c =>
  if c < m then (if i = p then a q c else if i = q then a p c else a i c) else a i c

/-- the trailing part of row and column `kk` is copied to row and column `kp` (bunchkaufman.hpp:252-257) -/
def bkBlockCopy (n kk kp : ℕ) (a : ℕ → ℕ → K) : ℕ → ℕ → K := fun i c =>
  if i = kp ∧ c = kp then a kk kk
  else if i = kp ∧ kk < c ∧ c < kp then a c kk
  else if c = kp ∧ kp < i ∧ i < n then a i kk
  else a i c

/-- the interchange in the blocked version (bunchkaufman.hpp:248-260) -/
def bkBlockSwap (n k : ℕ) (two : Bool) (kp : ℕ) (a w : ℕ → ℕ → K) : (ℕ → ℕ → K) × (ℕ → ℕ → K) :=
  let kk := if two then k + 1 else k
  if kp = kk then (a, w)
  else (swapRows k kk kp (bkBlockCopy n kk kp a), swapRows (kk + 1) kk kp w)

/-- 1x1 pivot in the blocked version (bunchkaufman.hpp:262-270) -/
def bkBlockElim1 (n k : ℕ) (a w : ℕ → ℕ → K) : ℕ → ℕ → K :=
  let a := fun i c => if c = k ∧ k ≤ i ∧ i < n then w i k else a i c
  let d11 := 1 / w k k
  let a := fun i c => if i = k ∧ c = k then d11 else a i c
  fun i c => if c = k ∧ k < i ∧ i < n then a i k * d11 else a i c

/-- 2x2 pivot in the blocked version (bunchkaufman.hpp:271-298) -/
def bkBlockElim2 (n k : ℕ) (a w : ℕ → ℕ → K) : ℕ → ℕ → K :=
  let D := bkD (w k k) (w (k + 1) k) (w (k + 1) (k + 1))
  let a := fun i c =>
    if i = k ∧ c = k then D.1 * D.2.2.2
    else if i = k + 1 ∧ c = k then -D.2.2.1 * D.2.2.2
    else if i = k + 1 ∧ c = k + 1 then D.2.1 * D.2.2.2
    else a i c
  fun i c =>
    if c = k ∧ k + 2 ≤ i ∧ i < n then bkWk D (w i k) (w i (k + 1))
    else if c = k + 1 ∧ k + 2 ≤ i ∧ i < n then bkWkp1 D (w i k) (w i (k + 1))
    else a i c

/-- state of the blocked version (arguments of bunchkaufman.hpp:169-173) -/
structure BkBlockSt (K : Type) where
  a : ℕ → ℕ → K
  w : ℕ → ℕ → K
  piv : ℕ → ℤ

/-- `w.col(k) = a.col(k) - a.block(k,0,n-k,k) * w.row(k)` on rows `k..n-1` (bunchkaufman.hpp:188-194) -/
def bkLoadCol (n k : ℕ) (a w : ℕ → ℕ → K) : ℕ → ℕ → K := fun i c =>
  if c = k ∧ k ≤ i ∧ i < n then a i k - ∑ j ∈ Finset.range k, a i j * w k j else w i c

/-- column `k + 1` of the workspace is loaded with row `imax` of the updated trailing matrix (bunchkaufman.hpp:213-223) -/
def bkLoadRow (n k imax : ℕ) (a w : ℕ → ℕ → K) : ℕ → ℕ → K := fun i c =>
  if c = k + 1 ∧ k ≤ i ∧ i < n then
    (if i < imax then a imax i else a i imax) - ∑ j ∈ Finset.range k, a i j * w imax j
  else w i c

/-- Pivot choice of the blocked version (bunchkaufman.hpp:196-246), which also fills the workspace. -/
def bkBlockChoose (alpha : K) (n k : ℕ) (a w : ℕ → ℕ → K) : Option (ℕ × Bool × (ℕ → ℕ → K)) :=
  let w := bkLoadCol n k a w
  let absAkk := |w k k|
  let imax := (bkColMax n k fun i => w i k).1
  let colmax := (bkColMax n k fun i => w i k).2
  if max absAkk colmax = 0 then none
  else if colmax * alpha ≤ absAkk then some (k, false, w)
  else
    let w := bkLoadRow n k imax a w
    let rowmax := bkRowMax n k imax fun i => w i (k + 1)
    if (alpha * colmax) * (colmax / rowmax) ≤ absAkk then some (k, false, w)
    else if alpha * rowmax ≤ |w imax (k + 1)| then
      some (imax, false, fun i c => if c = k ∧ k ≤ i ∧ i < n then w i (k + 1) else w i c)
    else some (imax, true, w)

/-- one pass of the loop of `bunch_kaufman_in_place_one_block` once the pivot is chosen (bunchkaufman.hpp:248-312); the
conjugations of `w` are identities -/
def bkBlockStep (n k : ℕ) (two : Bool) (kp : ℕ) (w : ℕ → ℕ → K) (s : BkBlockSt K) : BkBlockSt K :=
  let aw := bkBlockSwap n k two kp s.a w
  { a := if two then bkBlockElim2 n k aw.1 aw.2 else bkBlockElim1 n k aw.1 aw.2, w := aw.2, piv := bkSetPiv k two kp s.piv }

/-- the loop of `bunch_kaufman_in_place_one_block` (bunchkaufman.hpp:187-313), `nb` the number of columns of the workspace;
on success the number of processed columns -/
def bkBlockLoop (alpha : K) (n nb : ℕ) (k : ℕ) (s : BkBlockSt K) : Option ℕ × BkBlockSt K :=
  if k < n ∧ k + 1 < nb then
    match bkBlockChoose alpha n k s.a s.w with
    | none => (none, s)
    | some (kp, two, w) => bkBlockLoop alpha n nb (if two then k + 2 else k + 1) (bkBlockStep n k two kp w s)
  else (some k, s)
termination_by n - k
decreasing_by split <;> omega

/-- `a_right -= a_left * w^T` on the lower half (bunchkaufman.hpp:315-319) -/
def bkTrailing (n k : ℕ) (a w : ℕ → ℕ → K) : ℕ → ℕ → K := fun i c =>
  if k ≤ c ∧ c ≤ i ∧ i < n then a i c - ∑ j ∈ Finset.range k, a i j * w c j else a i c

/-- the final loop of `bunch_kaufman_in_place_one_block` (bunchkaufman.hpp:323-341), which undoes the row swaps in the
columns of the factor; entered with `j` -/
def bkUndo (piv : ℕ → ℤ) (j : ℕ) (a : ℕ → ℕ → K) : ℕ → ℕ → K :=
  let jp := if piv j < 0 then (-1 - piv j).toNat else (piv j).toNat
  let j' := if piv j < 0 then j - 1 else j
  if h : j' = 0 then a
  else
    let a := if jp ≠ j then swapRows (j' - 1 + 1) jp j a else a
    if j' - 1 = 0 then a else bkUndo piv (j' - 1) a
termination_by j
decreasing_by
  have : j' ≤ j := by simp only [j']; split <;> omega
  omega

/-- `bunch_kaufman_in_place_one_block(a, w, pivots, pivot_count, processed_cols)` (bunchkaufman.hpp:169-342); the number of
processed columns on success -/
def bkOneBlock (alpha : K) (n nb : ℕ) (s : BkBlockSt K) : Option ℕ × BkBlockSt K :=
  if n = 0 then (some 0, s)
  else
    match bkBlockLoop alpha n nb 0 s with
    | (none, s) => (none, s)
    | (some k, s) => (some k, { s with a := bkUndo s.piv (k - 1) (bkTrailing n k s.a s.w) })

/-- a block of the matrix or of an array starting at `o` (bunchkaufman.hpp:360-388) -/
def bkSub (o : ℕ) (s : BkSt K) : BkSt K := { a := fun i c => s.a (o + i) (o + c), piv := fun i => s.piv (o + i) }

/-- results for the block written back (bunchkaufman.hpp:360-388) -/
def bkPut (o n : ℕ) (s r : BkSt K) : BkSt K :=
  { a := fun i c => if o ≤ i ∧ i < n ∧ o ≤ c ∧ c < n then r.a (i - o) (c - o) else s.a i c
    piv := fun i => if o ≤ i ∧ i < n then r.piv (i - o) else s.piv i }

/-- pivots of the processed columns made global (bunchkaufman.hpp:373-384) -/
def bkShift (o kb : ℕ) (piv : ℕ → ℤ) : ℕ → ℤ := fun j =>
  if o ≤ j ∧ j < o + kb then (if 0 ≤ piv j then piv j + o else piv j - o) else piv j

/-- the first loop of `bunch_kaufman_in_place` (bunchkaufman.hpp:353-388) from column `k`; fuel since the number of
processed columns is data. `w` is the workspace, `nb` its number of columns. -/
def bkBlocks (alpha : K) (n nb : ℕ) : ℕ → ℕ → (ℕ → ℕ → K) → BkSt K → Option (Bool × BkSt K)
  | 0, k, _, s => if k < n then none else some (true, s)
  | fuel + 1, k, w, s =>
    if k < n then
      if nb ≠ 0 ∧ nb < n - k then
        match bkOneBlock alpha (n - k) nb { a := (bkSub k s).a, w, piv := (bkSub k s).piv } with
        | (none, r) => some (false, bkPut k n s { a := r.a, piv := r.piv })
        | (some kb, r) =>
          let s' := bkPut k n s { a := r.a, piv := r.piv }
          bkBlocks alpha n nb fuel (k + kb) r.w { s' with piv := bkShift k kb s'.piv }
      else
        match bkUnblocked alpha (n - k) (bkSub k s) with
        | (false, r) => some (false, bkPut k n s r)
        | (true, r) =>
          let s' := bkPut k n s r
          bkBlocks alpha n nb fuel n w { s' with piv := bkShift k (n - k) s'.piv }
    else some (true, s)

/-- `while (k < n) { p = pivots[k]; if (p < 0) { …; k += 2; } else { …; k += 1; } }`: the form of the loops over the pivots
(bunchkaufman.hpp:392-402, 405-415, 454-464, 471-497 and ldlt-allocator.hpp:150-178); the body gets `k` and the row
`-1 - p` or `p` -/
def forPivots {S : Type} (n : ℕ) (piv : ℕ → ℤ) (two one : ℕ → ℕ → S → S) (k : ℕ) (s : S) : S :=
  if k < n then
    if piv k < 0 then forPivots n piv two one (k + 2) (two k (-1 - piv k).toNat s)
    else forPivots n piv two one (k + 1) (one k (piv k).toNat s)
  else s
termination_by n - k

/-- moves the off-diagonal entries of the 2x2 blocks of `D` to `subdiag` (bunchkaufman.hpp:391-402) -/
def bkSubdiag (n : ℕ) (piv : ℕ → ℤ) (a : ℕ → ℕ → K) (subdiag : ℕ → K) : (ℕ → ℕ → K) × (ℕ → K) :=
  forPivots n piv
    (fun k _ s => (fun i c => if i = k + 1 ∧ c = k then 0 else s.1 i c,
      fun i => if i = k then s.1 (k + 1) k else if i = k + 1 then 0 else s.2 i))
    (fun k _ s => (s.1, fun i => if i = k then 0 else s.2 i)) 0 (a, subdiag)

/-- applies the later row swaps to the columns of the factor (bunchkaufman.hpp:404-415) -/
def bkConvert (n : ℕ) (piv : ℕ → ℤ) (a : ℕ → ℕ → K) : ℕ → ℕ → K :=
  forPivots n piv (fun k p a => swapRows k (k + 1) p a) (fun k p a => swapRows k k p a) 0 a

/-- State of a `BunchKaufman` object; `info`: `some true` for `Success`, `some false` for `NumericalIssue`, `none` for
`InvalidInput`. bunchkaufman.hpp:598-608. -/
structure BkObj (K : Type) where
  n : ℕ
  mat : ℕ → ℕ → K
  subdiag : ℕ → K
  piv : ℕ → ℤ
  info : Option Bool

/-- `BunchKaufman(size)` (bunchkaufman.hpp:551-555) -/
def BkObj.init (n : ℕ) : BkObj K := { n, mat := fun _ _ => 0, subdiag := fun _ => 0, piv := fun _ => 0, info := none }

/-- `compute(a)` (bunchkaufman.hpp:639-662 and 344-418) on a matrix of size `n`, `blockSize = 32` (line 532); the previous
contents of the object are discarded. `none` if the loop did not end within `n` passes. -/
def BkObj.compute (alpha : K) (_o : BkObj K) (n : ℕ) (A : ℕ → ℕ → K) (blockSize : ℕ := 32) : Option (BkObj K) :=
  let a := fun i c => if c ≤ i then A i c else 0
  let nb := if n ≤ blockSize then 0 else blockSize
  match bkBlocks alpha n nb n 0 (fun _ _ => 0) { a, piv := fun _ => 0 } with
  | none => none
  | some (false, s) => some { n, mat := s.a, subdiag := fun _ => 0, piv := s.piv, info := some false }
  | some (true, s) =>
    let r := bkSubdiag n s.piv s.a fun _ => 0
    some { n, mat := bkConvert n s.piv r.1, subdiag := r.2, piv := s.piv, info := some true }

/-- swap of two entries of a vector (bunchkaufman.hpp:460-463, 510-513) -/
def swapEntries (p q : ℕ) (x : ℕ → K) : ℕ → K := fun i => if i = p then x q else if i = q then x p else x i

/-- the last loop of the solve, entered with `k` (bunchkaufman.hpp:501-514) -/
def bkSolveBack (piv : ℕ → ℤ) (k : ℕ) (x : ℕ → K) : ℕ → K :=
  if h : 0 < k then
    let k' := k - 1
    if piv k' < 0 then bkSolveBack piv (k' - 1) (swapEntries k' (-1 - piv k').toNat x)
    else bkSolveBack piv k' (swapEntries k' (piv k').toNat x)
  else x
termination_by k

/-- multiplication with the stored inverse of `D` (bunchkaufman.hpp:470-497) -/
def bkSolveD (n : ℕ) (piv : ℕ → ℤ) (mat : ℕ → ℕ → K) (subdiag : ℕ → K) (x : ℕ → K) : ℕ → K :=
  forPivots n piv
    (fun k _ x i => if i = k then x k * mat k k + x (k + 1) * subdiag k
      else if i = k + 1 then x (k + 1) * mat (k + 1) (k + 1) + x k * subdiag k else x i)
    (fun k _ x i => if i = k then x k * mat k k else x i) 0 x

/-- `bunch_kaufman_solve_in_place` (bunchkaufman.hpp:447-516), `solve`, `solveInPlace` -/
def BkObj.solve (o : BkObj K) (b : ℕ → K) : ℕ → K :=
  let x := forPivots o.n o.piv (fun k p x => swapEntries (k + 1) p x) (fun k p x => swapEntries k p x) 0 b
  let x := fwdUnit o.n o.mat x
  let x := bkSolveD o.n o.piv o.mat o.subdiag x
  let x := bwdUnit o.n o.mat x
  bkSolveBack o.piv o.n x

/-- `bunch_kaufman_compute_signature` (ldlt-allocator.hpp:136-179), `eps = numeric_limits<Scalar>::epsilon()`; as a function
of the index -/
def bkSignatureFn (eps : K) (o : BkObj K) : ℕ → ℤ :=
  forPivots o.n o.piv
    (fun k _ s =>
      let ak := o.mat k k
      let akp1 := o.mat (k + 1) (k + 1)
      let akp1k := o.subdiag k
      let tr := ak + akp1
      let det := ak * akp1 - akp1k * akp1k
      if |det| ≤ eps then fun i => if i = k then 0 else if i = k + 1 then cwiseSign tr else s i
      else if 0 < det then fun i => if i = k then cwiseSign tr else if i = k + 1 then cwiseSign tr else s i
      else fun i => if i = k then -1 else if i = k + 1 then 1 else s i)
    (fun k _ s => fun i => if i = k then cwiseSign (o.mat k k) else s i) 0 (fun _ => 0)

/-- the signature vector handed to the inertia check (ldlt-allocator.hpp:189-192) -/
def BkObj.signature (eps : K) (o : BkObj K) : List ℤ := (List.range o.n).map (bkSignatureFn eps o)

end ProxNLP
