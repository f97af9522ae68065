import Verif.Lemmas.CallsValue
import Verif.Props.Certificate

/-!
C118: the calls a solve makes on the cost and the constraint functions. `solveP` is the solver as `ProxNLP.solve`, but every value and every
derivative is the answer to a call on an object with a memory of its own.
-/

set_option linter.unusedSectionVars false

namespace ProxNLP

open Spec

variable {X K : Type} {nc : ℕ} {d : Fin nc → ℕ} {n : ℕ} [Field K] [LinearOrder K] [IsStrictOrderedRing K]

/-- **C118, order**: whatever the objects answer, keep or throw, a solve asks for a derivative at a point only when all objects have been
evaluated at this point, without an exception, and no call has been made at another point since. -/
theorem C118_order {σ : Type} (U : FnObjects X K nc d n σ) (s : σ) (C : StepCfg X K n (∑ i, d i)) (off : Fin nc → Bool) (S : Settings K)
    (st : St X K (Hidden K n (∑ i, d i)) (∑ i, d i)) (x0 : X) (k : ℕ) (lams0 : Fin k → K) :
    DerivativesAfterValues ((solveP C off S st x0 k lams0).run U s []).2.2 := by
  obtain ⟨-, new, h1, h2⟩ := all_run U (solveP_all C off S st x0 k lams0 []) s
  rw [h1, List.nil_append]
  intro pre q b post he
  exact h2 pre q b post he

/-- **C118, functions that keep results**: objects that implement mathematical functions in the usual way (an evaluation prepares the
derivatives at the same point) give the solve for these functions, result and exceptions included, whatever is in their memory at first.
`solve` is the model all other theorems are about. -/
theorem C118_kept_results {σ : Type} {U : FnObjects X K nc d n σ} {F : Functions X K nc d n} {Ready : Option (Fin nc) → X → σ → Prop}
    (hU : Implements U F Ready) (s : σ) (C : StepCfg X K n (∑ i, d i)) (off : Fin nc → Bool) (S : Settings K)
    (st : St X K (Hidden K n (∑ i, d i)) (∑ i, d i)) (x0 : X) (k : ℕ) (lams0 : Fin k → K) :
    ((solveP C off S st x0 k lams0).run U s []).1 = solve (concreteCtx (F.cfg C off)) S st x0 k lams0 := by
  rw [← solveP_val]
  refine (implements_run hU _ [] s (solveP_all C off S st x0 k lams0 []) ?_).1
  rintro o x ⟨pre, q, mid, h, -⟩
  simp at h

/-- **C118, afterwards**: when a solve returns before the limit on iterations, every object has last been evaluated at the returned point,
without an exception, and nothing else has been called since; objects that keep results hold those of the returned point. -/
theorem C118_afterwards {σ : Type} (U : FnObjects X K nc d n σ) (s : σ) (C : StepCfg X K n (∑ i, d i)) (off : Fin nc → Bool) (S : Settings K)
    (st : St X K (Hidden K n (∑ i, d i)) (∑ i, d i)) (x0 : X) (k : ℕ) (lams0 : Fin k → K)
    (st' : St X K (Hidden K n (∑ i, d i)) (∑ i, d i)) (h : ((solveP C off S st x0 k lams0).run U s []).1 = .ok st')
    (hi : st'.numIters < S.maxIters) (ha : 0 < S.maxAlIters) :
    (∀ o, EvaluatedAt o st'.xOpt ((solveP C off S st x0 k lams0).run U s []).2.2) ∧
    ∀ (F : Functions X K nc d n) (Ready : Option (Fin nc) → X → σ → Prop), Implements U F Ready →
      ∀ o, Ready o st'.xOpt ((solveP C off S st x0 k lams0).run U s []).2.1 := by
  obtain ⟨⟨p, k', -, -, -, h4⟩, -⟩ := all_run U (solveP_all C off S st x0 k lams0 []) s
  have h5 := (h4 st' h).2.2 hi ha
  refine ⟨h5, fun F Ready hU o => ?_⟩
  refine (implements_run hU _ [] s (solveP_all C off S st x0 k lams0 []) ?_).2 o _ (h5 o)
  rintro o x ⟨pre, q, mid, h, -⟩
  simp at h

/-- **C118, number of calls**: whatever the objects answer, with any `N` such that `2^-(N+1) ≤ alpha_min`, a solve (also one that ends with
an exception) evaluates each object at most `max_iters + max_al_iters + max_iters (N + 1 + max_num_steps)` times and asks for each of its
derivatives at most `max_iters + max_al_iters` times; when it returns, the same holds with the reported numbers of iterations. -/
theorem C118_number {σ : Type} (U : FnObjects X K nc d n σ) (s : σ) (C : StepCfg X K n (∑ i, d i)) (off : Fin nc → Bool) (S : Settings K)
    (st : St X K (Hidden K n (∑ i, d i)) (∑ i, d i)) (x0 : X) (k : ℕ) (lams0 : Fin k → K) (N : ℕ)
    (hN : (1 / 2 : K) ^ (N + 1) ≤ C.ls.alphaMin) (o : Option (Fin nc)) :
    let r := (solveP C off S st x0 k lams0).run U s []
    (numCalls o 0 r.2.2 ≤ S.maxIters + S.maxAlIters + S.maxIters * (N + 1 + C.ls.maxNumSteps) ∧
      ∀ j, j ≠ 0 → numCalls o j r.2.2 ≤ S.maxIters + S.maxAlIters) ∧
    ∀ st', r.1 = .ok st' →
      numCalls o 0 r.2.2 ≤ st'.numIters + (st'.alIters + 1) + st'.numIters * (N + 1 + C.ls.maxNumSteps) ∧
      ∀ j, j ≠ 0 → numCalls o j r.2.2 ≤ st'.numIters + (st'.alIters + 1) := by
  intro r
  obtain ⟨⟨p, k', h1, h2, h3, h4⟩, -⟩ := all_run U (solveP_all C off S st x0 k lams0 []) s
  have c0 := h1 N hN o 0
  have cj := fun j (hj : j ≠ 0) => h1 N hN o j
  have e0 : numCalls o 0 r.2.2 ≤ p + (k' + k' * (N + 1 + C.ls.maxNumSteps)) := by
    simpa [numCalls, isVal, Nat.mul_add] using c0
  have ej : ∀ j, j ≠ 0 → numCalls o j r.2.2 ≤ p + k' := fun j hj => by
    simpa [numCalls, isVal, hj] using cj j hj
  have hm := Nat.mul_le_mul_right (N + 1 + C.ls.maxNumSteps) h3
  refine ⟨⟨by omega, fun j hj => by have := ej j hj; omega⟩, ?_⟩
  intro st' hst
  obtain ⟨g1, g2, -⟩ := h4 st' hst
  subst g1
  exact ⟨by omega, fun j hj => by have := ej j hj; omega⟩

/-- the functions a problem with the cost `q` stands for: `q` evaluated at the same point before each derivative -/
def Spec.quadFunctions {p : ℕ} (q : QuadCost X K n p) (cstr : (i : Fin nc) → X → Option (Fin (d i) → K))
    (jac : (i : Fin nc) → X → Fin (d i) → Fin n → K) (vhp : (i : Fin nc) → X → (Fin (d i) → K) → Matrix (Fin n) (Fin n) K) :
    Functions X K nc d n where
  cost x := some (q.call x).2
  cstr := cstr
  grad x := ((q.call x).1.gradient x).2
  jac := jac
  hess x := ((q.call x).1.hessian x).2
  vhp := vhp

theorem quad_implements {p : ℕ} (q : QuadCost X K n p) (cstr : (i : Fin nc) → X → Option (Fin (d i) → K))
    (jac : (i : Fin nc) → X → Fin (d i) → Fin n → K) (vhp : (i : Fin nc) → X → (Fin (d i) → K) → Matrix (Fin n) (Fin n) K) :
    Implements (q.objects cstr jac vhp) (quadFunctions q cstr jac vhp) fun o x s => o = none → s.1 = q.residual.eval x where
  value := by rintro (x | ⟨i, x⟩ | x | ⟨i, x⟩ | x | ⟨i, x, l⟩) s h <;> first | rfl | exact absurd h (by simp [Query.order])
  ready := by
    rintro (x | ⟨i, x⟩ | x | ⟨i, x⟩ | x | ⟨i, x, l⟩) s h _
    · exact fun _ => rfl
    · exact fun h => absurd h (by simp [Query.obj])
    all_goals exact absurd h (by simp [Query.order])
  deriv := by
    rintro (x | ⟨i, x⟩ | x | ⟨i, x⟩ | x | ⟨i, x, l⟩) s h hr
    · exact absurd rfl h
    · exact absurd rfl h
    · have : s.1 = q.residual.eval x := hr rfl
      show some (QuadCost.gradient { q with err := s.1, tmpWErr := s.2 } x).2 = some ((q.call x).1.gradient x).2
      rw [this]; rfl
    · rfl
    · have : s.1 = q.residual.eval x := hr rfl
      show some (QuadCost.hessian { q with err := s.1, tmpWErr := s.2 } x).2 = some ((q.call x).1.hessian x).2
      rw [this]; rfl
    · rfl
  keep := by
    rintro (x | ⟨i, x⟩ | x | ⟨i, x⟩ | x | ⟨i, x, l⟩) s o _ hr h1 _ ho
    · exact absurd ho (h1 rfl)
    all_goals exact hr ho

/-- **C118, quadratic residual costs**: a problem whose cost is a `QuadraticResidualCost` object, which uses in its derivatives what its last
evaluation left in its buffers, is solved as if every derivative were computed after an evaluation at the same point (what C39 is about),
whatever is in the buffers at first. -/
theorem C118_quadratic_residual {p : ℕ} (q : QuadCost X K n p) (cstr : (i : Fin nc) → X → Option (Fin (d i) → K))
    (jac : (i : Fin nc) → X → Fin (d i) → Fin n → K) (vhp : (i : Fin nc) → X → (Fin (d i) → K) → Matrix (Fin n) (Fin n) K)
    (s : (Fin p → K) × (Fin p → K)) (C : StepCfg X K n (∑ i, d i)) (off : Fin nc → Bool) (S : Settings K)
    (st : St X K (Hidden K n (∑ i, d i)) (∑ i, d i)) (x0 : X) (k : ℕ) (lams0 : Fin k → K) :
    ((solveP C off S st x0 k lams0).run (q.objects cstr jac vhp) s []).1 =
      solve (concreteCtx ((quadFunctions q cstr jac vhp).cfg C off)) S st x0 k lams0 :=
  C118_kept_results (quad_implements q cstr jac vhp) s C off S st x0 k lams0

/-- **C41 needs functions without buffers**: the finite-difference vector-Hessian product asks for Jacobians at points at which it has not
evaluated the function. For a `QuadraticResidualCost` with a linear residual it is therefore 0, whatever the weights, the matrix of the
residual, the step and the point at which the cost was evaluated last; the Hessian is `A^T W A`. -/
theorem C41_quadratic_cost_false {p : ℕ} (A : Matrix (Fin p) (Fin n) K) (b : Fin p → K) (W : Matrix (Fin p) (Fin p) K) (slope : Fin p → K)
    (c eps : K) (x y : Fin n → K) (v : Fin 1 → K) (H0 : Matrix (Fin n) (Fin n) K) :
    let q := ((QuadCost.new { eval := fun x i => A.mulVec x i + b i, jac := fun _ => A, vhp := fun _ _ => 0 } W slope c).call y).1
    fdVhp (fun x d => x + d) q.jacobian eps x v H0 = 0 ∧ (q.hessian x).2 = A.transpose * W * A := by
  refine ⟨?_, ?_⟩
  · unfold fdVhp
    have key : ∀ (is : List (Fin n)) (s : (Fin n → K) × Matrix (Fin n) (Fin n) K) (J : Matrix (Fin 1) (Fin n) K) (k i : Fin n),
        (i ∈ is ∨ s.2 k i = 0) →
        (is.foldl (fun (s : (Fin n → K) × Matrix (Fin n) (Fin n) K) i =>
          (Function.update (Function.update s.1 i eps) i 0, s.2.updateCol i fun k => ∑ l, (J l k - J l k) / (2 * eps) * v l)) s).2 k i = 0 := by
      intro is
      induction is with
      | nil => intro s J k i h; simpa using h
      | cons a is ih =>
        intro s J k i h
        rw [List.foldl_cons]
        apply ih
        by_cases hia : i = a
        · right; subst hia; simp
        · rcases h with h | h
          · rcases List.mem_cons.1 h with h | h
            · exact absurd h hia
            · exact .inl h
          · right; simpa [Matrix.updateCol_apply, hia] using h
    funext k i
    exact key (List.finRange n) _ (Matrix.of fun _ j => (A.transpose * W).mulVec (fun i => A.mulVec y i + b i) j + A.transpose.mulVec slope j)
      k i (.inl (List.mem_finRange i))
  · simp [QuadCost.hessian, QuadCost.call, QuadCost.new]

/-! ### Concrete cases -/

namespace Demo

/-- the cost `x²/2` as a quadratic residual cost -/
def halfSquare : QuadCost (Fin 1 → ℚ) ℚ 1 1 :=
  QuadCost.new { eval := fun x => x, jac := fun _ => 1, vhp := fun _ _ => 0 } 1 (fun _ => 0) 0

/-- `min x²/2 + |x - 3|` with this cost; both buffers contain rubbish at first -/
def keptRun : Except String (St (Fin 1 → ℚ) ℚ (Hidden ℚ 1 (∑ _ : Fin 1, 1)) (∑ _ : Fin 1, 1)) × ((Fin 1 → ℚ) × (Fin 1 → ℚ)) ×
    List (CallRec (Fin 1 → ℚ) ℚ 1 fun _ => 1) :=
  (solveP (d := fun _ : Fin 1 => 1) (l1Cfg .classic) (fun _ => true) (l1Settings .classic)
    (qpReady (l1Cfg .classic) (l1Settings .classic)) (fun _ => 5) 1 (fun _ => 0)).run
    (halfSquare.objects (fun _ x => some fun _ => x 0 - 3) (fun _ _ _ _ => 1) fun _ _ _ => 0) (fun _ => 77, fun _ => -5) []

end Demo

/-- the run: SUCCESS at the minimiser 1 after 2 iterations, 5 evaluations and 3 gradients of the cost (the bounds of `C118_number`, with
`N = 40`, allow more); the buffer then holds the residual at the returned point -/
example : (match Demo.keptRun.1 with
      | .ok st' => decide (st'.converged = .success ∧ st'.numIters = 2 ∧ st'.alIters = 0 ∧ st'.xOpt 0 = 1)
      | .error _ => false) = true ∧
    numCalls none 0 Demo.keptRun.2.2 = 5 ∧ numCalls none 1 Demo.keptRun.2.2 = 3 ∧ numCalls (some 0) 1 Demo.keptRun.2.2 = 3 ∧
    Demo.keptRun.2.1.1 0 = 1 ∧ (1 / 2 : ℚ) ^ (40 + 1) ≤ (Demo.l1Cfg .classic).ls.alphaMin := by
  refine ⟨by decide +kernel, by decide +kernel, by decide +kernel, by decide +kernel, by decide +kernel, by decide +kernel⟩

/-- the finite-difference Hessian of `x²/2` is 0, its Hessian 1 -/
example : fdVhp (fun x d => x + d) (Demo.halfSquare.call fun _ => 3).1.jacobian (1 / 1000) (fun _ => 3) (fun _ => 1) 0 0 0 = 0 ∧
    ((Demo.halfSquare.call fun _ => 3).1.hessian fun _ => 3).2 0 0 = 1 := by
  refine ⟨by decide +kernel, by decide +kernel⟩

end ProxNLP
