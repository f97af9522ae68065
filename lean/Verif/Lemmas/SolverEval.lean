import Verif.Lemmas.SolverOuter

/-! A structurally recursive copy of the loops, used only to evaluate concrete runs inside the kernel. -/

set_option linter.unusedSectionVars false
namespace ProxNLP

variable {X K H : Type} {n m : ℕ} [Field K] [LinearOrder K]

def innerFuel (P : Ctx X K H n m) (S : Settings K) : ℕ → St X K H m → Option (Except String (St X K H m))
  | 0, _ => none
  | fuel + 1, st =>
    match evalAt P S st.mu st.setMu st.rho st.target st.xOpt st.lamsOpt st.lamsPrev with
    | none => some (.error "evaluation")
    | some ev =>
      let st1 := afterEval P st ev
      if ev.innerCrit ≤ st.innerTol ∨ ev.outerCrit ≤ S.targetTol then some (.ok st1)
      else
        match P.step (stepIn st1 ev) with
        | .error e => some (.error e)
        | .ok o =>
          let st2 := { acceptStep st1 o with numIters := st.numIters + 1 }
          if st.numIters + 1 ≥ S.maxIters then some (.ok { st2 with converged := .maxIters })
          else innerFuel P S fuel st2

def outerFuel (P : Ctx X K H n m) (S : Settings K) : ℕ → St X K H m → Option (Except String (St X K H m))
  | 0, _ => none
  | fuel + 1, st =>
    if st.numIters < S.maxIters ∧ st.alIters < S.maxAlIters then
      match innerFuel P S (fuel + 1) (startOuter P st) with
      | none => none
      | some (.error e) => some (.error e)
      | some (.ok st1) =>
        let st2 := afterInner S st1
        if max st2.prim st2.dual < S.targetTol then some (.ok { st2 with converged := .success })
        else
          outerFuel P S fuel
            { setProxParameter st2 (st2.rho * S.rhoUpdateFactor) with alIters := st.alIters + 1 }
    else some (.ok st)

theorem innerFuel_sound (P : Ctx X K H n m) (S : Settings K) (fuel : ℕ) (st : St X K H m)
    (r : Except String (St X K H m)) (h : innerFuel P S fuel st = some r) : innerLoop P S st = r := by
  induction fuel generalizing st with
  | zero => simp [innerFuel] at h
  | succ fuel ih =>
    rw [innerFuel] at h
    rw [innerLoop]
    split at h
    · rename_i hn; rw [hn]; simpa using h
    · rename_i ev hev
      rw [hev]
      simp only at h ⊢
      split at h
      · rename_i hs; rw [if_pos hs]; simpa using h
      · rename_i hs; rw [if_neg hs]
        split at h
        · rename_i e he; rw [he]; simpa using h
        · rename_i o ho; rw [ho]
          simp only at h ⊢
          split at h
          · rename_i hm; rw [if_pos hm]; simpa using h
          · rename_i hm; rw [if_neg hm]; exact ih _ h

theorem outerFuel_sound (P : Ctx X K H n m) (S : Settings K) (fuel : ℕ) (st : St X K H m)
    (r : Except String (St X K H m)) (h : outerFuel P S fuel st = some r) : outerLoop P S st = r := by
  induction fuel generalizing st with
  | zero => simp [outerFuel] at h
  | succ fuel ih =>
    rw [outerFuel] at h
    rw [outerLoop]
    split at h
    · rename_i hc
      rw [if_pos hc]
      split at h
      · simp at h
      · rename_i e he; rw [innerFuel_sound P S _ _ _ he]; simpa using h
      · rename_i st1 h1
        rw [innerFuel_sound P S _ _ _ h1]
        simp only at h ⊢
        split at h
        · rename_i ht; rw [if_pos ht]; simpa using h
        · rename_i ht; rw [if_neg ht]; exact ih _ h
    · rename_i hc; rw [if_neg hc]; simpa using h

/-- run `solve` with the given fuel and test a decidable predicate of the final state -/
def checkSolve (P : Ctx X K H n m) (S : Settings K) (fuel : ℕ) (st : St X K H m) (x0 : X) (k : ℕ)
    (l : Fin k → K) (p : St X K H m → Bool) : Bool :=
  st.hasSetup && match outerFuel P S fuel (initSolve S st x0 k l) with
    | some (.ok s) => p (invokeCallbacks s)
    | _ => false

theorem checkSolve_sound (P : Ctx X K H n m) (S : Settings K) (fuel : ℕ) (st : St X K H m) (x0 : X) (k : ℕ)
    (l : Fin k → K) (p : St X K H m → Bool) (h : checkSolve P S fuel st x0 k l p = true) :
    ∃ st', solve P S st x0 k l = .ok st' ∧ p st' = true := by
  unfold checkSolve at h
  rw [Bool.and_eq_true] at h
  obtain ⟨hs, h⟩ := h
  split at h
  · rename_i s hf
    refine ⟨invokeCallbacks s, ?_, h⟩
    unfold solve
    rw [if_neg (by simp [hs]), outerFuel_sound P S _ _ _ hf]
  · simp at h

end ProxNLP
