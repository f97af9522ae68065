import Mathlib.Logic.Function.Basic
import Mathlib.Data.List.Basic

/-! Model of `history_callback` (helpers/history-callback.hpp) and of the part of the solver's memory it reads. -/

namespace ProxNLP

variable {K : Type}

/-- What a callback can read (results.hpp:26-46, workspace.hpp:114-119), except the multiplier references: the multipliers are
one vector, and constraint `i` owns the segment `dims[i] = (offset, length)` of it (problem-base.hpp:144-153, `allocateMultipliersOrResiduals`). -/
structure HistContents (K : Type) where
  x : List K
  lams : List K
  value : K
  primInfeas : K
  dualInfeas : K
  lsAlphas : List K
  lsValues : List K
  alphaOpt : K
  dmeritDir : K

/-- A reference to a segment of a multiplier vector, by the address of the vector. results.hpp:32,
workspace.hpp:114-119. -/
structure HistRef where
  ptr : ℕ
  offset : ℕ
  len : ℕ

/-- Solver memory: the readable contents, the address of `data_lams_opt`, the references `lams_opt` into it, and all vectors
alive at addresses (`heap`). `cur.lams` is what `heap` holds at `ptr`. results.hpp:26-46,
workspace.hpp:114-119. -/
structure HistMem (K : Type) where
  cur : HistContents K
  ptr : ℕ
  refs : List HistRef
  heap : ℕ → Option (List K)
  born : ℕ

/-- `storage` (history-callback.hpp:23-35) -/
structure HistStorage (K : Type) where
  xs : List (List K)
  lams : List (List K)
  lamsView : List (List HistRef)
  values : List K
  primInfeas : List K
  dualInfeas : List K
  lsAlphas : List (List K)
  lsValues : List (List K)
  alphas : List K
  dmeritDir : List K

/-- history-callback.hpp:23-35 -/
def HistStorage.empty : HistStorage K := ⟨[], [], [], [], [], [], [], [], [], []⟩

/-- constructor flags (history-callback.hpp:16-19) -/
structure HistFlags where
  primalDual : Bool
  values : Bool
  residuals : Bool

/-- `call` (history-callback.hpp:37-57). `none` is undefined behaviour: `&ls_alphas[0]`, `&ls_values[0]` with an empty vector
(unless `lenient`: forming the address of a first element that does not exist is taken to be harmless, as it is with most
standard libraries), or a copy of `ls_alphas.size()` numbers from a shorter `ls_values`. -/
def HistStorage.call (lenient : Bool) (f : HistFlags) (m : HistMem K) (h : HistStorage K) : Option (HistStorage K) :=
  let h := if f.primalDual then { h with xs := h.xs ++ [m.cur.x], lams := h.lams ++ [m.cur.lams], lamsView := h.lamsView ++ [m.refs] } else h
  let h := if f.values then { h with values := h.values ++ [m.cur.value] } else h
  let h := if f.residuals then { h with primInfeas := h.primInfeas ++ [m.cur.primInfeas], dualInfeas := h.dualInfeas ++ [m.cur.dualInfeas] } else h
  let asize := m.cur.lsAlphas.length
  if (m.cur.lsAlphas.length = 0 ∨ m.cur.lsValues.length = 0) ∧ ¬ lenient then none
  else if m.cur.lsValues.length < asize then none
  else some { h with
    lsAlphas := h.lsAlphas ++ [m.cur.lsAlphas]
    lsValues := h.lsValues ++ [m.cur.lsValues.take asize]
    alphas := h.alphas ++ [m.cur.alphaOpt]
    dmeritDir := h.dmeritDir ++ [m.cur.dmeritDir] }

/-- reading a stored reference now; `none`: the vector it refers to is gone (`lams_opt` of
results.hpp:32) -/
def HistMem.read (m : HistMem K) (r : HistRef) : Option (List K) := (m.heap r.ptr).map fun v => (v.drop r.offset).take r.len

/-- What happens to the solver between and at invocations. Not in the code: a history of
prox-solver.hpp:147-163, prox-solver.hxx:460-465 and history-callback.hpp:37-57. -/
inductive HistEvent (K : Type) where
  /-- the solver changes its results and workspace, in place: `data_lams_opt` keeps its address
  (prox-solver.hxx:460-462 and everywhere else it is assigned) -/
  | change (c : HistContents K)
  /-- `setup()` (prox-solver.hpp:147-149): new `Results`, the old one is destroyed -/
  | setup (c : HistContents K) (dims : List (ℕ × ℕ))
  /-- `invokeCallbacks` (prox-solver.hpp:282-286) reaches the history callback -/
  | invoke

/-- references to the segments (problem-base.hpp:132-153) -/
def histRefs (ptr : ℕ) (dims : List (ℕ × ℕ)) : List HistRef := dims.map fun d => ⟨ptr, d.1, d.2⟩

/-- memory after the first `setup` (prox-solver.hpp:147-163) -/
def HistMem.init (c : HistContents K) (dims : List (ℕ × ℕ)) : HistMem K :=
  { cur := c, ptr := 0, refs := histRefs 0 dims, heap := (fun a => if a = 0 then some c.lams else none), born := 1 }

/-- Not in the code: a history of prox-solver.hpp:147-163, prox-solver.hxx:460-465 and history-callback.hpp:37-57 -/
def histStep (lenient : Bool) (f : HistFlags) (s : HistMem K × HistStorage K) : HistEvent K → Option (HistMem K × HistStorage K)
  | .change c => some ({ s.1 with cur := c, heap := fun a => if a = s.1.ptr then some c.lams else s.1.heap a }, s.2)
  | .setup c dims => some (
      { cur := c
        ptr := s.1.born
        refs := histRefs s.1.born dims
        heap := fun a => if a = s.1.born then some c.lams else if a = s.1.ptr then none else s.1.heap a
        born := s.1.born + 1 }, s.2)
  | .invoke => (s.2.call lenient f s.1).map fun h => (s.1, h)

/-- Not in the code: a history of prox-solver.hpp:147-163, prox-solver.hxx:460-465 and history-callback.hpp:37-57 -/
def histRun (lenient : Bool) (f : HistFlags) (s : HistMem K × HistStorage K) : List (HistEvent K) → Option (HistMem K × HistStorage K)
  | [] => some s
  | e :: es => match histStep lenient f s e with
    | none => none
    | some s => histRun lenient f s es

end ProxNLP
