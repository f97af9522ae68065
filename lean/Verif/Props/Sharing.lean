import Verif.Lemmas.SharingJac
import Verif.Props.StepHistory
import Mathlib.Algebra.Field.Rat
import Mathlib.Tactic.NormNum

/-!
# C117: changing an object after a problem has been built from it

The theorems are about every program (list of statements) that runs without an exception from an empty memory. What the program says
about its objects is defined on its text alone, in `Spec/Sharing.lean`.
-/

set_option linter.unusedSectionVars false

namespace ProxNLP

open Spec

variable {K : Type} [Field K]

/-- **C117, functions**: evaluating a function gives `A x + b` with the matrix and offset assigned *last* (`x - target`, the composition
of the two functions as they are *now*), and is defined exactly when the sizes match. -/
theorem C117_functions {hist : List (Stmt K)} {o : Objects K} (h : Objects.run {} hist = some o) (f : ℕ) (x y : List K) :
    o.value f x = some y ↔ Maps hist f x y :=
  ⟨maps_of_eval h _ f x y, fun hm => eval_of_maps h hm _ (Nat.lt_succ_self f)⟩

/-- **C117, constraint values**: whenever a problem was built, its `i`-th constraint value is what its function *now* maps the point
to, also if the function was changed after the constraint or the problem was made; constraints added to other problems do not count. -/
theorem C117_constraint_values {hist : List (Stmt K)} {o : Objects K} (h : Objects.run {} hist = some o) (p i c f s : ℕ)
    (pre : List (Stmt K)) (hi : ConstraintAt hist p i c) (hc : Made makesCon hist c pre (.newConstraint f s)) (x : List K) (v : K)
    (ys : List (List K)) (he : o.evaluate p x = some (v, ys)) : ∃ y, ys[i]? = some y ∧ Maps hist f x y := by
  obtain ⟨w, hw⟩ := made_con_from h hc
  have hcon := made_con h hc hw
  obtain ⟨pre', cost, cs, post, rfl, rfl, hi⟩ := hi
  obtain ⟨q, hq, e⟩ := prob_constraints h
  simp only [Objects.evaluate, hq, Option.bind_eq_some_iff, Option.some.injEq, Prod.mk.injEq] at he
  obtain ⟨_, -, ys', hys, -, rfl⟩ := he
  have hm := mapM_get hys
  have hqi : q.constraints[i]? = some ⟨f, w⟩ := by
    have := congrArg (fun l => l[i]?) e
    simp only [List.getElem?_map, hi, Option.map_some, hcon] at this
    cases hqi : q.constraints[i]? with
    | none => simp [hqi] at this
    | some u => simpa [hqi] using this
  have := congrArg (fun l => l[i]?) hm
  simp only [List.getElem?_map, hqi, Option.map_some] at this
  cases hy : ys'[i]? with
  | none => simp [hy] at this
  | some y =>
    refine ⟨y, rfl, ?_⟩
    simp only [hy, Option.map_some, Option.some.injEq, Objects.segment, Option.bind_eq_some_iff] at this
    obtain ⟨y', h1, h2⟩ := this
    split_ifs at h2
    obtain rfl := Option.some.inj h2
    exact (C117_functions h f x y').1 h1

/-- **C117, Jacobians**: the Jacobian of the `i`-th constraint is the one of its function with the matrices assigned last. -/
theorem C117_jacobians {hist : List (Stmt K)} {o : Objects K} (h : Objects.run {} hist = some o) (p i c f s : ℕ)
    (pre : List (Stmt K)) (hi : ConstraintAt hist p i c) (hc : Made makesCon hist c pre (.newConstraint f s)) (x : List K)
    (Js : List (LMat K)) (he : o.jacobians p x = some Js) : ∃ J, Js[i]? = some J ∧ Derives hist f x J := by
  obtain ⟨w, hw⟩ := made_con_from h hc
  have hcon := made_con h hc hw
  obtain ⟨pre', cost, cs, post, rfl, rfl, hi⟩ := hi
  obtain ⟨q, hq, e⟩ := prob_constraints h
  simp only [Objects.jacobians, hq] at he
  have hm := mapM_get he
  have hqi : q.constraints[i]? = some ⟨f, w⟩ := by
    have := congrArg (fun l => l[i]?) e
    simp only [List.getElem?_map, hi, Option.map_some, hcon] at this
    cases hqi : q.constraints[i]? with
    | none => simp [hqi] at this
    | some u => simpa [hqi] using this
  have := congrArg (fun l => l[i]?) hm
  simp only [List.getElem?_map, hqi, Option.map_some] at this
  cases hy : Js[i]? with
  | none => simp [hy] at this
  | some J =>
    simp only [hy, Option.map_some, Option.some.injEq] at this
    exact ⟨J, rfl, derives_of_jac h _ f x J this⟩

/-- **C117, Jacobians exist**: if no assignment changed the size of a matrix, a function of any nesting depth that can be evaluated at a
point has a Jacobian there, with the matrices assigned last. -/
theorem C117_jacobian_defined {hist : List (Stmt K)} {o : Objects K} (h : Objects.run {} hist = some o) (hk : SizesKept hist) (f : ℕ)
    (x y : List K) (hv : o.value f x = some y) : ∃ J, o.jacobian f x = some J ∧ Derives hist f x J := by
  obtain ⟨J, g, h1, -⟩ := jac_of_maps h hk ((C117_functions h f x y).1 hv) _ (Nat.lt_succ_self f)
  exact ⟨J, h1, derives_of_jac h _ f x J h1⟩

/-- **C117, objective**: the objective is the quadratic form of what the residual of the cost assigned last *now* maps the point to. -/
theorem C117_objective {hist : List (Stmt K)} {o : Objects K} (h : Objects.run {} hist = some o) (p c f : ℕ) (W : LMat K) (sl : List K)
    (k : K) (pre : List (Stmt K)) (hp : LastCost hist p c) (hc : Made makesCost hist c pre (.newCost f W sl k)) (x : List K) (v : K)
    (ys : List (List K)) (he : o.evaluate p x = some (v, ys)) :
    ∃ r, Maps hist f x r ∧ r.length = W.cols ∧ r.length = W.rows.length ∧ r.length = sl.length ∧
      v = 2⁻¹ * (List.zipWith (· * ·) r (W.rows.map fun row => (List.zipWith (· * ·) row r).sum)).sum +
        (List.zipWith (· * ·) r sl).sum + k := by
  obtain ⟨q, hq, rfl⟩ := prob_cost h hp
  have hcost := made_cost h hc
  simp only [Objects.evaluate, hq, Objects.costValue, hcost, Option.bind_eq_some_iff, Option.some.injEq, Prod.mk.injEq] at he
  obtain ⟨_, ⟨r, h1, w, h2, a, h3, b, h4, rfl⟩, _, -, rfl, -⟩ := he
  unfold LMat.mulVec at h2
  unfold ldot at h3 h4
  split_ifs at h2 h3 h4 with e2 e3 e4
  obtain rfl := Option.some.inj h2
  obtain rfl := Option.some.inj h3
  obtain rfl := Option.some.inj h4
  exact ⟨r, (C117_functions h f x r).1 h1, e2, by simpa using e3, e4, rfl⟩

/-- **C117, sets**: the set of the `i`-th constraint of a problem is, for ever, the set *as it was when the constraint object was made*
(`pre` is the program up to that statement), whatever is done with the user's set object later. -/
theorem C117_sets {hist : List (Stmt K)} {o : Objects K} (h : Objects.run {} hist = some o) (p i c f s : ℕ) (pre : List (Stmt K))
    (hi : ConstraintAt hist p i c) (hc : Made makesCon hist c pre (.newConstraint f s)) (v : UserSet K) (hv : SetIs pre s v) :
    ∃ l, o.setsOf p = some l ∧ l[i]? = some v := by
  have hcon := made_con h hc hv
  obtain ⟨pre', cost, cs, post, rfl, rfl, hi⟩ := hi
  obtain ⟨q, hq, e⟩ := prob_constraints h
  refine ⟨q.constraints.map ConObj.set, by simp [Objects.setsOf, hq], ?_⟩
  have := congrArg (fun l => l[i]?) e
  simp only [List.getElem?_map, hi, Option.map_some, hcon] at this
  cases hqi : q.constraints[i]? with
  | none => simp [hqi] at this
  | some u =>
    have hu : u = ⟨f, v⟩ := by simpa [hqi] using this
    simp [hqi, hu]

/-- ... and every set the program can use has such a description. -/
theorem C117_sets_described {hist : List (Stmt K)} {o : Objects K} (h : Objects.run {} hist = some o) (c f s : ℕ) (pre : List (Stmt K))
    (hc : Made makesCon hist c pre (.newConstraint f s)) : ∃ v, SetIs pre s v :=
  made_con_from h hc

/-- **C117, number of constraints**: a problem has the constraints given to its constructor and those added to *it*: changes of the
list passed to the constructor, or of other problems, do not count. -/
theorem C117_number {hist : List (Stmt K)} {o : Objects K} (h : Objects.run {} hist = some o) (p n : ℕ) (hn : NumConstraints hist p n) :
    ∃ l, o.setsOf p = some l ∧ l.length = n := by
  obtain ⟨pre, cost, cs, post, rfl, rfl, rfl⟩ := hn
  obtain ⟨q, hq, e⟩ := prob_constraints h
  refine ⟨_, by simp only [Objects.setsOf, hq, Option.map_some]; rfl, ?_⟩
  have := congrArg List.length e
  simpa using this

/-- **C117, dimension**: the dimension of a problem that can be evaluated is the number of all rows of its constraint values. -/
theorem C117_total {o : Objects K} (p : ℕ) (x : List K) (v : K) (ys : List (List K)) (he : o.evaluate p x = some (v, ys)) :
    o.totalDim p = some (ys.map List.length).sum := by
  simp only [Objects.evaluate] at he
  cases hq : o.probs[p]? with
  | none => simp [hq] at he
  | some q =>
    simp only [hq, Option.bind_eq_some_iff, Option.some.injEq, Prod.mk.injEq] at he
    obtain ⟨_, -, ys', hys, -, rfl⟩ := he
    simp only [Objects.totalDim, hq, Option.bind_some]
    rw [Option.map_eq_some_iff]
    refine ⟨ys'.map List.length, mapM_of_map ?_, rfl⟩
    refine List.ext_getElem? fun i => ?_
    have := congrArg (fun l => l[i]?) (mapM_get hys)
    simp only [List.getElem?_map] at this ⊢
    cases hc : q.constraints[i]? with
    | none =>
      cases hy : ys'[i]? with
      | none => rfl
      | some y => simp [hc, hy] at this
    | some c =>
      cases hy : ys'[i]? with
      | none => simp [hc, hy] at this
      | some y =>
        simp only [hc, hy, Option.map_some, Option.some.injEq, Objects.segment, Option.bind_eq_some_iff] at this
        obtain ⟨y', h1, h2⟩ := this
        split_ifs at h2 with hd
        obtain rfl := Option.some.inj h2
        simp [← hd]

/-- **C117, dimensions**: no statement other than adding a constraint to this problem changes its dimension: `f.A = …` with a matrix of
another size does not. -/
theorem C117_dimensions {o o' : Objects K} {hist : List (Stmt K)} (h : o.run hist = some o') (p n : ℕ) (hn : o.totalDim p = some n)
    (hno : ∀ c, Stmt.addConstraint p c ∉ hist) : o'.totalDim p = some n := by
  simp only [Objects.totalDim, Option.bind_eq_some_iff] at hn
  obtain ⟨q, hq, hs⟩ := hn
  obtain ⟨q', hq', e⟩ := run_prob_get h hq
  have ha : added p hist = [] := by
    simp only [added, List.filterMap_eq_nil_iff]
    intro s hs
    cases s <;> simp only
    case addConstraint p' c =>
      split_ifs with hp
      · exact absurd (hp ▸ hs) (hno c)
      · rfl
  have e' : q'.constraints = q.constraints := by
    rw [ha, List.map_nil, List.append_nil] at e
    exact List.map_injective_iff.2 (Option.some_injective _) e
  simp only [Objects.totalDim, hq', Option.bind_some, e']
  rw [Option.map_eq_some_iff] at hs ⊢
  obtain ⟨l, hl, rfl⟩ := hs
  refine ⟨l, mapM_of_map ?_, rfl⟩
  have hm := mapM_get hl
  rw [← hm]
  refine List.map_congr_left fun c hc => ?_
  have : o.dim c.func ∈ l.map some := hm ▸ List.mem_map_of_mem hc
  obtain ⟨d, -, hd⟩ := List.mem_map.1 this
  rw [← hd]
  simp only [Objects.dim] at hd ⊢
  cases hf : o.funs[c.func]? with
  | none => simp [hf] at hd
  | some g =>
    obtain ⟨g', hg', -, hr⟩ := run_fun_dims h hf
    simp_all

/-- **C117, as if built anew**: for every program that keeps the sizes of the matrices, the program without the assignments, in which
every linear function is created with the values assigned last, also runs and ends with exactly the same objects: all functions,
constraints, costs and problems compute the same. -/
theorem C117_anew {hist : List (Stmt K)} {o : Objects K} (h : Objects.run {} hist = some o) (val : ℕ → LMat K × List K)
    (hv : LastValues hist val) (hk : SizesKept hist) : Objects.run {} (anew val 0 hist) = some o := by
  have := anew_run val hist {} o h (fun pre A0 b0 post e => by
    have hm : Made makesFun hist (pre.countP makesFun) pre (.newLinear A0 b0) := ⟨post, e, rfl, rfl⟩
    obtain ⟨A, b, hg⟩ := made_fun h hm
    obtain ⟨h1, h2⟩ := fun_from h hg
    have e2 : ({} : Objects K).funs.length + pre.countP makesFun = pre.countP makesFun := by simp
    rw [e2, hv _ A b h1 h2]
    exact hk _ pre A0 b0 A hm h1)
  rw [withVals_current h val hv] at this
  exact this

/-- **C117, solving again after a change**: a solver that was used before (in whatever state `a`), whose problem data are changed and
that is asked to solve again with multipliers, gives the same outcome as a new solver on a problem built anew with the new data.
`build` is any way in which the solver reads the problem off the objects; exact or Gauss-Newton Hessian and no proximal term as in
`C21_any_state_partial`. -/
theorem C117_resolve {K : Type} [Field K] [LinearOrder K] [IsStrictOrderedRing K] {X : Type} {n m : ℕ} {hist : List (Stmt K)}
    {o o' : Objects K} (h : Objects.run {} hist = some o) (val : ℕ → LMat K × List K) (hv : LastValues hist val) (hk : SizesKept hist)
    (h' : Objects.run {} (anew val 0 hist) = some o') (build : Objects K → StepCfg X K n m)
    (hA : (build o).approx = .exact ∨ (build o).approx = .gaussNewton) (hd : (build o).inertia.deltaInit ≤ (build o).inertia.deltaMax)
    (hC : ProxCentreFree (build o)) (S : Settings K) (hr : S.rhoInit = 0) (hi : 0 < S.maxIters) (ho : 0 < S.maxAlIters)
    (a b : St X K (Hidden K n m) m) (x0 : X) (lams0 : Fin m → K) (h1 : a.hasSetup = b.hasSetup) (h2 : a.callbacks = b.callbacks) :
    SameResult (SameResults fun _ _ => True) (solve (concreteCtx (build o)) S a x0 m lams0)
      (solve (concreteCtx (build o')) S b x0 m lams0) := by
  have e : o = o' := Option.some.inj ((C117_anew h val hv hk).symm.trans h')
  subst e
  exact C21_any_state_partial (build o) hA hd hC S hr hi ho a b x0 lams0 h1 h2

namespace Demo

/-- a linear function, a box and a constraint on it, a cost with the same residual and a problem; then the user changes the offset of
the function and the limits of the box -/
def shareProg : List (Stmt ℚ) :=
  [.newLinear ⟨2, [[1, 2]]⟩ [5], .newSet (.box [0] [1]), .newConstraint 0 0, .newCost 0 ⟨1, [[2]]⟩ [0] 0, .newProblem 0 [0],
    .setOffset 0 [7], .setUpper 0 [100], .newConstraint 0 0, .newProblem 0 [1]]

end Demo

/-- The offset assigned last is used by the old problem and in its cost (`1·1 + 2·1 + 7 = 10`, `½·10·2·10 = 100`), the limit assigned
later only by the constraint made afterwards. -/
example : ∃ o, Objects.run {} Demo.shareProg = some o ∧ o.evaluate 0 [1, 1] = some (100, [[10]]) ∧
    o.evaluate 1 [1, 1] = some (100, [[10]]) ∧ o.setsOf 0 = some [.box [0] [1]] ∧ o.setsOf 1 = some [.box [0] [100]] :=
  ⟨_, rfl, by decide +kernel, by decide +kernel, by decide +kernel, by decide +kernel⟩

/-- Jacobians of a composition with a changed matrix: `[3, 4] · I`. -/
example : ∃ o, Objects.run {} ([.newLinear ⟨2, [[1, 2]]⟩ [5], .newDiff [1, 1], .newCompose 0 1, .newSet .equality, .newConstraint 2 0,
    .newCost 1 ⟨2, [[1, 0], [0, 1]]⟩ [0, 0] 0, .newProblem 0 [0], .setMat 0 ⟨2, [[3, 4]]⟩] : List (Stmt ℚ)) = some o ∧
    o.jacobians 0 [1, 2] = some [⟨2, [[3, 4]]⟩] ∧ o.evaluate 0 [1, 2] = some (1 / 2, [[9]]) :=
  ⟨_, rfl, by decide +kernel, by decide +kernel⟩

/-- a composition of compositions: after the assignment `3 · 3 · 3 = 27` -/
example : ∃ o, Objects.run {} ([.newLinear ⟨1, [[2]]⟩ [0], .newCompose 0 0, .newCompose 1 0, .setMat 0 ⟨1, [[3]]⟩] : List (Stmt ℚ)) = some o ∧
    o.value 2 [1] = some [27] ∧ o.jacobian 2 [1] = some ⟨1, [[27]]⟩ :=
  ⟨_, rfl, by decide +kernel, by decide +kernel⟩

example : LastOffset Demo.shareProg 0 [7] ∧ LastMat Demo.shareProg 0 ⟨2, [[1, 2]]⟩ ∧ ConstraintAt Demo.shareProg 0 0 0 ∧
    SetIs (Demo.shareProg.take 2) 0 (.box [0] [1]) :=
  ⟨⟨Demo.shareProg.take 5, _, _, rfl, .inl rfl, by simp⟩, ⟨[], _, _, rfl, .inr ⟨[5], rfl, rfl⟩, by simp⟩,
    ⟨Demo.shareProg.take 4, 0, [0], _, rfl, rfl, rfl⟩,
    .box _ _ ⟨[.newLinear ⟨2, [[1, 2]]⟩ [5]], _, [], rfl, .inr ⟨[1], rfl, rfl⟩, by simp⟩
      ⟨[.newLinear ⟨2, [[1, 2]]⟩ [5]], _, [], rfl, .inr ⟨[0], rfl, rfl⟩, by simp⟩⟩

/-- the program with the last values -/
example : anew (fun _ => ((⟨2, [[1, 2]]⟩ : LMat ℚ), [(7 : ℚ)])) 0 Demo.shareProg =
    [.newLinear ⟨2, [[1, 2]]⟩ [7], .newSet (.box [0] [1]), .newConstraint 0 0, .newCost 0 ⟨1, [[2]]⟩ [0] 0, .newProblem 0 [0],
      .setUpper 0 [100], .newConstraint 0 0, .newProblem 0 [1]] := rfl

/-- **What a user may expect and does not get, sets**: `box.upper_limit = …` after the constraint was made has no effect on the problem,
neither is there an error: the problem keeps the limit `1`, while the user's own object says `100`. -/
theorem C117_box_change_false : ∃ o, Objects.run {} (Demo.shareProg.take 7) = some o ∧ o.sets = [.box [0] [100]] ∧
    o.setsOf 0 = some [.box [0] [1]] := by
  refine ⟨_, rfl, by decide +kernel, by decide +kernel⟩

/-- **... sizes**: a matrix with another number of rows or columns, or an offset of another size, is accepted silently; the problem
keeps its dimension, and evaluating it is an error (Eigen assertion, or a write out of bounds when assertions are off). -/
theorem C117_resize_false :
    (∃ o, Objects.run {} (Demo.shareProg.take 5 ++ [.setMat 0 ⟨2, [[1, 2], [3, 4]]⟩, .setOffset 0 [5, 6]]) = some o ∧
      o.totalDim 0 = some 1 ∧ o.value 0 [1, 1] = some [8, 13] ∧ o.evaluate 0 [1, 1] = none ∧ o.jacobians 0 [1, 1] = none) ∧
    (∃ o, Objects.run {} (Demo.shareProg.take 5 ++ [.setMat 0 ⟨3, [[1, 2, 3]]⟩]) = some o ∧ o.evaluate 0 [1, 1] = none) ∧
    ∃ o : Objects ℚ, Objects.run {} [.newLinear ⟨2, [[1, 2]]⟩ [5, 6]] = some o ∧ o.value 0 [1, 1] = none :=
  ⟨⟨_, rfl, by decide +kernel, by decide +kernel, by decide +kernel, by decide +kernel⟩, ⟨_, rfl, by decide +kernel⟩,
    ⟨_, rfl, by decide +kernel⟩⟩

end ProxNLP
