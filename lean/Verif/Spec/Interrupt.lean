import Verif.Model.Interrupt

/-! Specification vocabulary for C110 (exceptions in the middle of a solve). -/

namespace ProxNLP.Spec

variable {X K H : Type} {m : ℕ}

/-- the last point and multipliers the solve had reached: the last accepted step (`accepted` lists them in order), or the start -/
def lastReached (x0 : X) (l0 : Fin m → K) (accepted : List (X × (Fin m → K))) : X × (Fin m → K) := accepted.getLast?.getD (x0, l0)

/-- the two states show the same to a user of the results, the solver and its callbacks: everything but the record of callback
invocations -/
def SameButTrace (a b : St X K H m) : Prop := ∃ t, a = { b with trace := t }

end ProxNLP.Spec
