import Verif.Spec.Infeasible
import Verif.Lemmas.Solver
import Verif.Lemmas.SolverOuter

/-!
What the reported residuals can be: residuals of an evaluated point.
-/

set_option linter.unusedSectionVars false
namespace ProxNLP

variable {X K H : Type} {n m : ℕ} [Field K] [LinearOrder K] [IsStrictOrderedRing K]

/-- `Q` holds for the pair of residuals at every point, multiplier and penalty in `[mu_lower, mu_init]` -/
def EveryResidual (P : Ctx X K H n m) (S : Settings K) (Q : K → K → Prop) : Prop :=
  ∀ (x : X) (lam : Fin m → K) (mu f : K) (c : Fin m → K), S.muLower ≤ mu → mu ≤ S.muInit → P.eval x = some (f, c) →
    Q (inftyNorm fun i => c i - P.sets.projection mu (fun j => c j + mu * lam j) i)
      (inftyNorm fun j => P.grad x j + ∑ i, P.jac x i j * lam i)

theorem inner_residuals (P : Ctx X K H n m) (S : Settings K) (Q : K → K → Prop) (hQ : EveryResidual P S Q) (st st' : St X K H m)
    (h : innerLoop P S st = .ok st') (hset : st.setMu = st.mu) (h1 : S.muLower ≤ st.mu) (h2 : st.mu ≤ S.muInit) :
    Q st'.prim st'.dual := by
  have key : ∀ (st : St X K H m) ev, evalSt P S st = some ev → st.setMu = st.mu → S.muLower ≤ st.mu → st.mu ≤ S.muInit →
      Q (afterEval P st ev).prim (afterEval P st ev).dual := by
    intro st ev hev hs h1 h2
    unfold evalSt evalAt at hev
    rw [Option.map_eq_some_iff] at hev
    obtain ⟨⟨f, c⟩, hf, he⟩ := hev
    subst he
    have := hQ st.xOpt st.lamsOpt st.mu f c h1 h2 hf
    simpa only [afterEval, primResidual, primErr, hs, dualResidual] using this
  refine innerLoop_ind P S (R := fun st st' => st.setMu = st.mu → S.muLower ≤ st.mu → st.mu ≤ S.muInit → Q st'.prim st'.dual)
    ?_ ?_ ?_ st st' h hset h1 h2
  · intro st ev hev _ hs h1 h2; exact key st ev hev hs h1 h2
  · intro st ev o hev _ _ _ hs h1 h2; exact key st ev hev hs h1 h2
  · intro st st' ev o _ _ _ _ _ ih hs h1 h2; exact ih hs h1 h2

theorem outer_residuals (P : Ctx X K H n m) (S : Settings K) (hle : S.muLower ≤ S.muInit) (hf1 : S.muUpdateFactor ≤ 1)
    (hlow : 0 < S.muLower) (Q : K → K → Prop) (hQ : EveryResidual P S Q) (st st' : St X K H m) (h : outerLoop P S st = .ok st')
    (hset : st.setMu = st.mu) (h1 : S.muLower ≤ st.mu) (h2 : st.mu ≤ S.muInit)
    (h3 : (st.numIters < S.maxIters ∧ st.alIters < S.maxAlIters) ∨ Q st.prim st.dual) : Q st'.prim st'.dual := by
  refine outerLoop_ind P S (R := fun st st' => st.setMu = st.mu → S.muLower ≤ st.mu → st.mu ≤ S.muInit →
    ((st.numIters < S.maxIters ∧ st.alIters < S.maxAlIters) ∨ Q st.prim st.dual) → Q st'.prim st'.dual) ?_ ?_ ?_ st st' h hset h1 h2 h3
  · intro st hb _ _ _ hr
    exact hr.resolve_left hb
  · intro st st1 _ _ hin _ hs h1 h2 _
    show Q (afterInner S st1).prim (afterInner S st1).dual
    rw [afterInner_prim, afterInner_dual]
    exact inner_residuals P S Q hQ _ _ hin hs h1 h2
  · intro st st1 st' _ _ hin _ _ ih hs h1 h2 _
    have hf := innerLoop_frame P S _ _ hin
    have hm : st1.mu = st.mu := hf.mu
    refine ih ?_ ?_ ?_ (Or.inr ?_)
    · exact afterInner_setMu S st1 (by rw [hf.setMu, hf.mu]; exact hs)
    · show S.muLower ≤ (afterInner S st1).mu
      rw [afterInner_mu, hm]
      split
      · exact h1
      · split
        · exact hle
        · exact le_max_right _ _
    · show (afterInner S st1).mu ≤ S.muInit
      rw [afterInner_mu, hm]
      split
      · exact h2
      · split
        · exact le_rfl
        · refine max_le (le_trans ?_ h2) hle
          have : 0 ≤ st.mu := hlow.le.trans h1
          nlinarith
    · show Q (afterInner S st1).prim (afterInner S st1).dual
      rw [afterInner_prim, afterInner_dual]
      exact inner_residuals P S Q hQ _ _ hin hs h1 h2

theorem solve_residuals (P : Ctx X K H n m) (S : Settings K) (hle : S.muLower ≤ S.muInit) (hf1 : S.muUpdateFactor ≤ 1)
    (hlow : 0 < S.muLower) (Q : K → K → Prop) (hQ : EveryResidual P S Q) (st st' : St X K H m) (x0 : X) (k : ℕ)
    (lams0 : Fin k → K) (h : solve P S st x0 k lams0 = .ok st') (h1 : 0 < S.maxIters) (h2 : 0 < S.maxAlIters) :
    Q st'.prim st'.dual := by
  obtain ⟨_, stf, hf, rfl⟩ := solve_ok P S st x0 k lams0 st' h
  obtain ⟨-, -, -, -, -, -, -, e2, e3, -⟩ := initSolve_outerLog S st x0 k lams0
  exact outer_residuals P S hle hf1 hlow Q hQ _ stf hf (by rw [e2, e3]) (by rw [e2]; exact hle) (by rw [e2])
    (Or.inl ⟨by unfold initSolve; exact h1, by unfold initSolve; exact h2⟩)

end ProxNLP
