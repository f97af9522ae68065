import Verif.Model.BlockMemory

/-! Specification of `BlockLDLT` objects as values: each object holds its own analysis, there is no shared memory. -/

namespace ProxNLP.Spec

open ProxNLP

/-- the objects in lifetime and what they hold -/
abbrev Analyses := ℕ → Option BlockAnalysis

def Analyses.put (c : Analyses) (i : ℕ) (x : Option BlockAnalysis) : Analyses := fun j => if j = i then x else c j

/-- a method that changes object `i` only -/
def Analyses.change (c : Analyses) (i : ℕ) (f : BlockAnalysis → Option BlockAnalysis) : Option Analyses :=
  match c i with
  | none => none
  | some a => (f a).map fun a' => c.put i (some a')

/-- Value semantics; `none` is a use the caller must not make. -/
def analysisStep (c : Analyses) : BlockMemOp → Option Analyses
  | .new i size s => if c i = none then some (c.put i (some (BlockAnalysis.init size s))) else none
  | .copy i j => match c i, c j with
    | none, some a => some (c.put i (some a.copy))
    | _, _ => none
  | .assign i j => match c i, c j with
    | some _, some a => some (c.put i (some a))
    | _, _ => none
  | .analyze i => c.change i fun a => some (analyzePattern a).2
  | .setPerm i q => c.change i fun a => setBlockPermutation a q
  | .find i => c.change i fun a => findSparsifyingPermutation a.struct.n.factorial a
  | .destroy i => match c i with
    | none => none
    | some _ => some (c.put i none)

def analysisRun (c : Analyses) : List BlockMemOp → Option Analyses
  | [] => some c
  | op :: ops => match analysisStep c op with
    | none => none
    | some c => analysisRun c ops

/-- objects created minus objects destroyed by one operation, and arrays an operation loses: the local copy of
`setBlockPermutation` and `findSparsifyingPermutation`, and the old transpose unless the analysis was done before -/
def lost (c : Analyses) : BlockMemOp → ℕ
  | .analyze i => match c i with
    | some a => if a.struct.performed then 0 else 1
    | none => 0
  | .setPerm i _ | .find i => match c i with
    | some a => if a.struct.performed then 1 else 2
    | none => 0
  | _ => 0

def totalLost (c : Analyses) : List BlockMemOp → ℕ
  | [] => 0
  | op :: ops => lost c op + match analysisStep c op with
    | none => 0
    | some c => totalLost c ops

/-- construction, copy construction, analysis and destruction, but no assignment -/
def noAssign : BlockMemOp → Bool
  | .assign _ _ => false
  | _ => true

/-- construction, copy construction and destruction only -/
def lifeOnly : BlockMemOp → Bool
  | .new _ _ _ | .copy _ _ | .destroy _ => true
  | _ => false

def createdBy : BlockMemOp → ℕ
  | .new _ _ _ | .copy _ _ => 1
  | _ => 0

def destroyedBy : BlockMemOp → ℕ
  | .destroy _ => 1
  | _ => 0

/-- the objects as a reader of the memory sees them -/
def analyses (m : BlockMem) : Analyses := fun i => (m.objs i).bind m.view

/-- arrays alive that belong to no object in lifetime -/
def Unowned (m : BlockMem) (a : ℕ) : Prop :=
  m.heap.blocks a ≠ none ∧ ∀ i o, m.objs i = some o → o.struct.ptr ≠ a ∧ o.structTr.ptr ≠ a

end ProxNLP.Spec
