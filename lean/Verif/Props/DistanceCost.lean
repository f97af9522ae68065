import Verif.Spec.DistanceCost
import Verif.Props.ManifoldCalculus
import Verif.Props.QuadCost
import Mathlib.Data.List.GetD

/-! Property theorems for C87: distance costs. -/

set_option linter.unusedSectionVars false
namespace ProxNLP

open Spec

variable {K : Type} [Field K]

/-! ### Memory invariants -/

/-- every cost points to a residual -/
def DistState.Ok (s : DistState K) : Prop := ∀ c ∈ s.costs, c.residual < s.residuals.length

theorem distNew_ok {s s' : DistState K} {M : Manifold K} {t : List K} {rows cols : ℕ} {W : ℕ → ℕ → K}
    (h : s.new M t rows cols W = .ok s') : M.isNormalized t = .ok true ∧
      s' = { residuals := s.residuals ++ [⟨M, t⟩]
             costs := s.costs ++ [⟨s.residuals.length, rows, cols, W, List.replicate M.ndx 0⟩] } := by
  unfold DistState.new StateResidual.new at h
  cases hn : M.isNormalized t with
  | error e => rw [hn] at h; cases h
  | ok b =>
    cases b with
    | false => rw [hn] at h; cases h
    | true => rw [hn] at h; cases h; exact ⟨rfl, rfl⟩

theorem distNew_of {M : Manifold K} {t : List K} (s : DistState K) (rows cols : ℕ) (W : ℕ → ℕ → K) (hn : M.isNormalized t = .ok true) :
    s.new M t rows cols W = .ok { residuals := s.residuals ++ [⟨M, t⟩]
                                  costs := s.costs ++ [⟨s.residuals.length, rows, cols, W, List.replicate M.ndx 0⟩] } := by
  unfold DistState.new StateResidual.new
  rw [hn]; rfl

/-- **C87, constructors**: a target that the space recognises as its element is installed, and one that the space does not
recognise is rejected with an exception. -/
theorem C87_constructor (s : DistState K) (M : Manifold K) (t : List K) (rows cols : ℕ) (W : ℕ → ℕ → K) (hs : s.Ok) :
    (M.isNormalized t = .ok true → ∃ s', s.new M t rows cols W = .ok s' ∧ s'.getTarget s.costs.length = .ok t ∧
      ∀ j < s.costs.length, s'.getTarget j = s.getTarget j) ∧
    (M.isNormalized t = .ok false → s.new M t rows cols W = .error .throws) := by
  constructor
  · intro hn
    refine ⟨_, distNew_of s rows cols W hn, ?_, ?_⟩
    · simp [DistState.getTarget]
    · intro j hj
      have hc := hs _ (List.getElem_mem hj)
      simp only [DistState.getTarget, List.getElem?_append_left hj, List.getElem?_eq_getElem hj, List.getElem?_append_left hc]
  · intro hn
    unfold DistState.new StateResidual.new
    rw [hn]; rfl

/-! ### Programs without copies -/

/-- the memory holds exactly these costs, each with a residual of its own -/
structure DistMatch (s : DistState K) (cs : List (OwnCost K)) : Prop where
  residuals : s.residuals.length = cs.length
  costs : s.costs.length = cs.length
  data : ∀ i o, cs[i]? = some o → s.residuals[i]? = some (⟨o.space, o.target⟩ : StateResidual K) ∧
    ∃ err, s.costs[i]? = some (⟨i, o.rows, o.cols, o.weights, err⟩ : DistCost K)

theorem distMatch_append {s : DistState K} {cs : List (OwnCost K)} (h : DistMatch s cs) (o : OwnCost K) (err : List K) :
    DistMatch { residuals := s.residuals ++ [⟨o.space, o.target⟩], costs := s.costs ++ [⟨s.residuals.length, o.rows, o.cols, o.weights, err⟩] }
      (cs ++ [o]) := by
  refine ⟨by simp [h.residuals], by simp [h.costs], ?_⟩
  intro i o' ho
  rcases lt_or_ge i cs.length with hi | hi
  · rw [List.getElem?_append_left hi] at ho
    obtain ⟨h1, err', h2⟩ := h.data i o' ho
    rw [List.getElem?_append_left (by rw [h.residuals]; exact hi), List.getElem?_append_left (by rw [h.costs]; exact hi)]
    exact ⟨h1, err', h2⟩
  · rw [List.getElem?_append_right hi] at ho
    have : i = cs.length := by
      by_contra hne
      rw [List.getElem?_eq_none (by simp; omega)] at ho
      cases ho
    subst this
    simp only [Nat.sub_self, List.getElem?_cons_zero, Option.some.injEq] at ho
    subst ho
    refine ⟨?_, err, ?_⟩
    · rw [← h.residuals]; simp
    · rw [← h.costs]; simp [h.residuals, h.costs]

/-- an exception leaves the memory as it was -/
def afterThrow (s : DistState K) : Except Fault (DistState K) → Except Fault (DistState K)
  | .error .throws => .ok s
  | r => r

theorem distMatch_new {s s' : DistState K} {cs : List (OwnCost K)} (h : DistMatch s cs) (M : Manifold K) (t : List K) (rows cols : ℕ)
    (W : ℕ → ℕ → K) (hs : afterThrow s (s.new M t rows cols W) = .ok s') :
    DistMatch s' (cs ++ accepted M t ⟨M, t, rows, cols, W⟩) := by
  cases hn : s.new M t rows cols W with
  | ok s1 =>
    rw [hn] at hs
    cases hs
    obtain ⟨h1, rfl⟩ := distNew_ok hn
    rw [accepted, h1]
    exact distMatch_append h ⟨M, t, rows, cols, W⟩ _
  | error e =>
    rw [hn] at hs
    cases e with
    | undefined => cases hs
    | throws =>
      cases hs
      have : accepted M t ⟨M, t, rows, cols, W⟩ = ([] : List (OwnCost K)) := by
        unfold accepted
        split
        · rename_i h1
          rw [distNew_of s rows cols W h1] at hn
          cases hn
        · rfl
      rw [this, List.append_nil]
      exact h

theorem distMatch_step {s s' : DistState K} {cs : List (OwnCost K)} (h : DistMatch s cs) (op : DistOp K) (h1 : ∀ i, op ≠ .copy i)
    (h2 : ∀ i j, op ≠ .assign i j) (hs : s.step op = .ok s') : DistMatch s' (ownStep cs op) := by
  cases op with
  | new M t rows cols W => exact distMatch_new h M t rows cols W hs
  | newUnit M t => exact distMatch_new h M t _ _ _ hs
  | newNeutral M =>
    unfold DistState.step DistState.newNeutral at hs
    simp only at hs
    cases hn : M.neutral with
    | error e =>
      rw [hn] at hs
      simp only [ownStep, hn]
      cases e with
      | undefined => cases hs
      | throws => cases hs; exact h
    | ok e =>
      rw [hn] at hs
      simp only [ownStep, hn]
      exact distMatch_new h M e _ _ _ hs
  | copy i => exact absurd rfl (h1 i)
  | assign i j => exact absurd rfl (h2 i j)
  | updateTarget i x =>
    simp only [DistState.step, DistState.updateTarget] at hs
    cases hc : cs[i]? with
    | none =>
      have : s.costs[i]? = none := by
        rw [List.getElem?_eq_none_iff] at hc ⊢
        rw [h.costs]; exact hc
      rw [this] at hs
      cases hs
    | some o =>
      obtain ⟨e1, err, e2⟩ := h.data i o hc
      rw [e2] at hs
      simp only [e1] at hs
      cases hs
      have hi : i < cs.length := (List.getElem?_eq_some_iff.1 hc).1
      simp only [ownStep, hc]
      refine ⟨by simp [h.residuals], by simp [h.costs], ?_⟩
      intro j o' ho
      rw [List.getElem?_set] at ho ⊢
      by_cases hij : i = j
      · subst hij
        rw [if_pos rfl] at ho ⊢
        rw [if_pos (by rw [h.residuals]; exact hi)]
        rw [if_pos hi] at ho
        cases ho
        exact ⟨rfl, err, e2⟩
      · rw [if_neg hij] at ho ⊢
        exact h.data j o' ho
  | call i x =>
    simp only [DistState.step, DistState.call] at hs
    cases hc : cs[i]? with
    | none =>
      have : s.costs[i]? = none := by
        rw [List.getElem?_eq_none_iff] at hc ⊢
        rw [h.costs]; exact hc
      rw [this] at hs
      cases hs
    | some o =>
      obtain ⟨e1, err, e2⟩ := h.data i o hc
      rw [e2] at hs
      simp only [e1] at hs
      cases hd : StateResidual.eval ⟨o.space, o.target⟩ x with
      | error e =>
        rw [hd] at hs
        cases e with
        | undefined => cases hs
        | throws => cases hs; exact h
      | ok d =>
        rw [hd] at hs
        simp only [bind, Except.bind] at hs
        split_ifs at hs with hg
        · cases hs
          show DistMatch _ cs
          refine ⟨h.residuals, by simp [h.costs], ?_⟩
          intro j o' ho
          obtain ⟨g1, err', g2⟩ := h.data j o' ho
          refine ⟨g1, ?_⟩
          rw [List.getElem?_set]
          by_cases hij : i = j
          · subst hij
            rw [hc] at ho
            cases ho
            have hi : i < s.costs.length := by rw [h.costs]; exact (List.getElem?_eq_some_iff.1 hc).1
            rw [if_pos rfl, if_pos hi]
            exact ⟨d, rfl⟩
          · rw [if_neg hij]
            exact ⟨err', g2⟩
        · cases hs

theorem distMatch_run {s s' : DistState K} {cs : List (OwnCost K)} (h : DistMatch s cs) (ops : List (DistOp K)) (hn : noCopies ops)
    (hs : s.run ops = .ok s') : DistMatch s' (ops.foldl ownStep cs) := by
  induction ops generalizing s cs with
  | nil => cases hs; exact h
  | cons op ops ih =>
    simp only [DistState.run, bind, Except.bind] at hs
    cases hst : s.step op with
    | error e => rw [hst] at hs; cases hs
    | ok s1 =>
      rw [hst] at hs
      exact ih (distMatch_step h op (hn op List.mem_cons_self).1 (hn op List.mem_cons_self).2 hst)
        (fun o ho => hn o (List.mem_cons_of_mem _ ho)) hs

theorem distMatch_empty : DistMatch (DistState.empty : DistState K) [] := ⟨rfl, rfl, by simp⟩

/-- **C87, values** (partial: programs that never copy or assign a distance cost). Each cost has the target it was made with or
last given, and evaluating it at `x` gives `1/2 dᵀ W d` for the difference `d` between its target and `x`.
Missing: copies, which share the target, see `C87_copies_share_false`. -/
theorem C87_values_partial (ops : List (DistOp K)) (hn : noCopies ops) (s : DistState K) (hs : DistState.empty.run ops = .ok s) :
    s.costs.length = (ownCosts ops).length ∧ ∀ i o, (ownCosts ops)[i]? = some o → s.getTarget i = .ok o.target ∧
      ∀ x d, DiffTo o.space o.target x d → d.length = o.space.ndx → o.rows = o.space.ndx → o.cols = o.space.ndx →
        ∃ s', s.call i x = .ok (s', 1 / 2 * ((fun a : Fin o.space.ndx => d.getD a 0) ⬝ᵥ
          (Matrix.of fun a b : Fin o.space.ndx => o.weights a b).mulVec fun b : Fin o.space.ndx => d.getD b 0)) := by
  have h := distMatch_run distMatch_empty ops hn hs
  refine ⟨h.costs, ?_⟩
  intro i o ho
  obtain ⟨e1, err, e2⟩ := h.data i o ho
  refine ⟨by simp [DistState.getTarget, e2, e1], ?_⟩
  intro x d hd hl hr hc
  have hev : StateResidual.eval ⟨o.space, o.target⟩ x = .ok d := hd _ (by simp [freshVec])
  simp only [DistState.call, e2, e1, hev, bind, Except.bind]
  rw [if_pos ⟨hl, hr.trans hl.symm, hc.trans hl.symm⟩]
  refine ⟨_, congrArg Except.ok (Prod.ext rfl ?_)⟩
  simp only [dotProduct, Matrix.mulVec, Matrix.of_apply]
  rw [hr, hc, Finset.sum_range]
  congr 1
  refine Finset.sum_congr rfl fun a _ => ?_
  rw [Finset.sum_range]

/-! ### Gradient -/

open Topology in
/-- **C87, gradient** (partial: programs that never copy or assign a distance cost). On a lawful space whose Jacobian of `difference`
is the derivative at the target and `x`, with symmetric weights, `computeGradient(x)` right after evaluating the cost at `x` returns
the gradient of the values of the cost around `x`, along the retraction of the space. -/
theorem C87_gradient_partial (ops : List (DistOp ℝ)) (hn : noCopies ops) (s s' : DistState ℝ) (hs : DistState.empty.run ops = .ok s)
    (i : ℕ) (o : OwnCost ℝ) (ho : (ownCosts ops)[i]? = some o) (S : Space ℝ) (hS : S.M = o.space) (hL : Lawful S)
    (hr : o.rows = o.space.ndx) (hc : o.cols = o.space.ndx) (hW : ∀ a b, o.weights a b = o.weights b a)
    (x : List ℝ) (hx : S.valid x) (hJ : TrueJdifference S.M o.target x 1) (v : ℝ) (hcall : s.call i x = .ok (s', v)) (J0 : ℕ → ℕ → ℝ) :
    ∃ (φ : (Fin o.space.ndx → ℝ) → ℝ) (g : Fin o.space.ndx → ℝ),
      (∀ᶠ d in 𝓝 0, ∃ y, IntTo S.M x (List.ofFn d) y ∧ ∃ s'', s.call i y = .ok (s'', φ d)) ∧ φ 0 = v ∧
      s'.gradient i x J0 = .ok (List.ofFn g) ∧ HasGradient φ g 0 := by
  have hm := distMatch_run distMatch_empty ops hn hs
  obtain ⟨e1, err, e2⟩ := hm.data i o ho
  rw [hS] at hJ
  obtain ⟨B, hB, f, hf, hder⟩ := hJ J0
  -- evaluation where the difference is known
  have hev : ∀ y (r : Fin o.space.ndx → ℝ), DiffTo o.space o.target y (List.ofFn r) →
      s.call i y = .ok ({ s with costs := s.costs.set i ⟨i, o.rows, o.cols, o.weights, List.ofFn r⟩ },
        1 / 2 * (r ⬝ᵥ (Matrix.of fun a b : Fin o.space.ndx => o.weights a b).mulVec r)) := by
    intro y r hd
    have he : StateResidual.eval ⟨o.space, o.target⟩ y = .ok (List.ofFn r) := hd _ (by simp [freshVec])
    simp only [DistState.call, e2, e1, he, bind, Except.bind]
    rw [if_pos ⟨by simp, by simp [hr], by simp [hc]⟩]
    refine congrArg Except.ok (Prod.ext rfl ?_)
    simp only [dotProduct, Matrix.mulVec, Matrix.of_apply]
    rw [hr, hc, Finset.sum_range]
    congr 1
    refine Finset.sum_congr rfl fun a _ => ?_
    rw [Finset.sum_range]
    simp
  have h0 : DiffTo o.space o.target x (List.ofFn (f 0)) := by
    rcases hf.self_of_nhds with ⟨h01, -⟩ | ⟨-, y, hy, hd⟩
    · exact absurd h01 (by decide)
    · have hz := hL.integrate_zero x hx
      rw [hS] at hz
      have : (List.ofFn (0 : Fin o.space.ndx → ℝ)) = List.replicate o.space.ndx 0 := by
        apply List.ext_getElem <;> simp
      rw [this] at hy
      rwa [intTo_unique hy hz] at hd
  have h1 := hev x (f 0) h0
  rw [hcall] at h1
  obtain ⟨rfl, rfl⟩ := Prod.mk.inj (Except.ok.inj h1)
  have hgr := C39_gradient (fun (z d : Fin o.space.ndx → ℝ) => z + d)
    (QuadCost.new ⟨f, fun _ => Matrix.of fun a b : Fin o.space.ndx => B a b, fun _ _ => 0⟩
      (Matrix.of fun a b : Fin o.space.ndx => o.weights a b) (fun _ => 0) 0) 0 (by simp)
    (by ext a b; exact hW b a) (by simpa [HasTangentJacobian, QuadCost.new] using hder)
  refine ⟨_, _, ?_, ?_, ?_, hgr⟩
  · filter_upwards [hf] with d hd
    rcases hd with ⟨h01, -⟩ | ⟨-, y, hy, hd⟩
    · exact absurd h01 (by decide)
    · refine ⟨y, by rw [hS]; exact hy, _, (hev y _ hd).trans (congrArg Except.ok (Prod.ext rfl ?_))⟩
      simp [QuadCost.call, QuadCost.new, dotProduct]
  · simp [QuadCost.call, QuadCost.new, dotProduct]
  · have hi : i < s.costs.length := (List.getElem?_eq_some_iff.1 e2).1
    have hj : StateResidual.jac ⟨o.space, o.target⟩ x J0 = .ok B := hB
    simp only [DistState.gradient, List.getElem?_set_self hi, e1, hj, bind, Except.bind]
    rw [if_pos ⟨hr, by simp [hc]⟩]
    refine congrArg Except.ok ?_
    apply List.ext_getElem
    · simp
    · intro j hj1 hj2
      simp only [List.getElem_map, List.getElem_range, List.getElem_ofFn, QuadCost.gradient, QuadCost.call, QuadCost.new,
        Matrix.mulVec, dotProduct, Matrix.mul_apply, Matrix.transpose_apply, Matrix.of_apply]
      rw [hr, hc, Finset.sum_range]
      simp only [Finset.sum_range]
      simp

/-! ### Copies -/

theorem residual_of_step {s s' : DistState K} (op : DistOp K) (k : ℕ) (hk : ∀ j, op ≠ .assign k j) (hs : s.step op = .ok s') (r : ℕ)
    (h : (s.costs[k]?).map (·.residual) = some r) : (s'.costs[k]?).map (·.residual) = some r := by
  have hlt : k < s.costs.length := by
    by_contra hge
    rw [List.getElem?_eq_none (not_lt.1 hge)] at h
    cases h
  have happ : ∀ c, ((s.costs ++ [c])[k]?).map (·.residual) = some r := by
    intro c; rw [List.getElem?_append_left hlt]; exact h
  have hnew : ∀ M t rows cols W, afterThrow s (s.new M t rows cols W) = .ok s' → (s'.costs[k]?).map (·.residual) = some r := by
    intro M t rows cols W hs
    cases hn : s.new M t rows cols W with
    | ok s1 =>
      rw [hn] at hs
      cases hs
      obtain ⟨-, rfl⟩ := distNew_ok hn
      exact happ _
    | error e =>
      rw [hn] at hs
      cases e with
      | undefined => cases hs
      | throws => cases hs; exact h
  cases op with
  | new M t rows cols W => exact hnew M t rows cols W hs
  | newUnit M t => exact hnew M t _ _ _ hs
  | newNeutral M =>
    unfold DistState.step DistState.newNeutral at hs
    simp only at hs
    cases hn : M.neutral with
    | error e =>
      rw [hn] at hs
      cases e with
      | undefined => cases hs
      | throws => cases hs; exact h
    | ok e =>
      rw [hn] at hs
      exact hnew M e _ _ _ hs
  | copy i =>
    simp only [DistState.step, DistState.copy] at hs
    cases hc : s.costs[i]? with
    | none => rw [hc] at hs; cases hs
    | some c => rw [hc] at hs; cases hs; exact happ c
  | assign i j =>
    simp only [DistState.step, DistState.assign] at hs
    cases hc : s.costs[j]? with
    | none => rw [hc] at hs; cases hs
    | some c =>
      rw [hc] at hs
      simp only at hs
      split_ifs at hs with hi
      · cases hs
        rw [List.getElem?_set_ne (by rintro rfl; exact hk j rfl)]
        exact h
  | updateTarget i x =>
    simp only [DistState.step, DistState.updateTarget] at hs
    cases hc : s.costs[i]? with
    | none => rw [hc] at hs; cases hs
    | some c =>
      rw [hc] at hs
      simp only at hs
      cases hr : s.residuals[c.residual]? with
      | none => rw [hr] at hs; cases hs
      | some q => rw [hr] at hs; cases hs; exact h
  | call i x =>
    simp only [DistState.step, DistState.call] at hs
    cases hc : s.costs[i]? with
    | none => rw [hc] at hs; cases hs
    | some c =>
      rw [hc] at hs
      simp only at hs
      cases hr : s.residuals[c.residual]? with
      | none => rw [hr] at hs; cases hs
      | some q =>
        rw [hr] at hs
        simp only at hs
        cases hd : q.eval x with
        | error e =>
          rw [hd] at hs
          cases e with
          | undefined => cases hs
          | throws => cases hs; exact h
        | ok d =>
          rw [hd] at hs
          simp only [bind, Except.bind] at hs
          split_ifs at hs with hg
          · cases hs
            show ((s.costs.set i _)[k]?).map _ = _
            rw [List.getElem?_set]
            by_cases hik : i = k
            · subst hik
              rw [if_pos rfl, if_pos hlt]
              rw [hc] at h
              exact h
            · rw [if_neg hik]; exact h
          · cases hs

/-- **C87 does not hold for copies**: from the moment a distance cost is copied, the copy and the original have the same target
for ever, whatever is done to either of them (short of assigning another cost to one of them): updating the target of one updates
the other. -/
theorem C87_copies_share (s s1 s2 : DistState K) (i : ℕ) (h : s.copy i = .ok s1) (ops : List (DistOp K))
    (hn : ∀ op ∈ ops, ∀ j, op ≠ .assign i j ∧ op ≠ .assign s.costs.length j) (hs : s1.run ops = .ok s2) :
    s2.getTarget i = s2.getTarget s.costs.length := by
  unfold DistState.copy at h
  cases hc : s.costs[i]? with
  | none => rw [hc] at h; cases h
  | some c =>
    rw [hc] at h
    have h1 : s1 = { s with costs := s.costs ++ [c] } := by cases h; rfl
    have hi : i < s.costs.length := (List.getElem?_eq_some_iff.1 hc).1
    have a1 : (s1.costs[i]?).map (·.residual) = some c.residual := by
      rw [h1]; show ((s.costs ++ [c])[i]?).map _ = _
      rw [List.getElem?_append_left hi, hc]; rfl
    have a2 : (s1.costs[s.costs.length]?).map (·.residual) = some c.residual := by
      rw [h1]; show ((s.costs ++ [c])[s.costs.length]?).map _ = _
      simp
    clear h h1
    have key : ∀ ops (s1 : DistState K), (∀ op ∈ ops, ∀ j, op ≠ .assign i j ∧ op ≠ .assign s.costs.length j) → s1.run ops = .ok s2 →
        (s1.costs[i]?).map (·.residual) = some c.residual → (s1.costs[s.costs.length]?).map (·.residual) = some c.residual →
        (s2.costs[i]?).map (·.residual) = some c.residual ∧ (s2.costs[s.costs.length]?).map (·.residual) = some c.residual := by
      intro ops
      induction ops with
      | nil => intro s1 _ hs b1 b2; cases hs; exact ⟨b1, b2⟩
      | cons op ops ih =>
        intro s1 hn hs b1 b2
        simp only [DistState.run, bind, Except.bind] at hs
        cases hst : s1.step op with
        | error e => rw [hst] at hs; cases hs
        | ok s3 =>
          rw [hst] at hs
          refine ih s3 (fun o ho => hn o (List.mem_cons_of_mem _ ho)) hs ?_ ?_
          · exact residual_of_step op i (fun j => (hn op List.mem_cons_self j).1) hst _ b1
          · exact residual_of_step op _ (fun j => (hn op List.mem_cons_self j).2) hst _ b2
    obtain ⟨b1, b2⟩ := key ops s1 hn hs a1 a2
    unfold DistState.getTarget
    cases h1 : s2.costs[i]? with
    | none => rw [h1] at b1; cases b1
    | some c1 =>
      cases h2 : s2.costs[s.costs.length]? with
      | none => rw [h2] at b2; cases b2
      | some c2 =>
        rw [h1] at b1; rw [h2] at b2
        simp only [Option.map_some, Option.some.injEq] at b1 b2
        simp only [b1, b2]

/-- result of a program observed through `getTarget` and `call` -/
def Demo.distObserve (ops : List (DistOp ℚ)) (i : ℕ) (x : List ℚ) : Except Fault (List ℚ × ℚ) := do
  let s ← DistState.empty.run ops
  let t ← s.getTarget i
  let v ← s.call i x
  pure (t, v.2)

/-- **C87 is false for copies**, concretely: on the line, the cost with target 1 is copied and the copy is moved to target 5; now
the original has target 5 as well and its value at 1 is 8 instead of 0. -/
theorem C87_copies_share_false :
    let ops := [DistOp.newUnit (ProxNLP.vectorSpace 1) [1], .copy 0, .updateTarget 1 [5]]
    ((ownCosts ops)[0]?).map (·.target) = some [1] ∧
    Demo.distObserve (ops.take 2) 0 [1] = .ok ([1], 0) ∧
    Demo.distObserve ops 0 [1] = .ok ([5], 8) ∧
    Demo.distObserve ops 1 [1] = .ok ([5], 8) := by decide +kernel

/-- **C87: the check of the target is not reliable**. A space whose only element is `[1]` makes the constructor reject `[2]`;
a product of two such spaces accepts `[2, 3]` (see C46); `updateTarget` accepts `[2]`; and on the plane a target of the wrong size
is accepted, after which evaluation is undefined. -/
theorem C87_target_check_false :
    (StateResidual.new Demo.picky [2]).toOption.isNone ∧
    (StateResidual.new (cartesianProduct [Demo.picky, Demo.picky]) [2, 3]).toOption.isSome ∧
    Demo.distObserve [.newUnit Demo.picky [1], .updateTarget 0 [2]] 0 [4] = .ok ([2], 2) ∧
    Demo.distObserve [.newUnit (ProxNLP.vectorSpace 2) [1]] 0 [0, 0] = .error .undefined := by decide +kernel

/-- `C87_gradient_partial` is not vacuous: the squared distance on the line. -/
example (t x : ℝ) (J0 : ℕ → ℕ → ℝ) : ∃ s s' v, DistState.empty.run [DistOp.newUnit (ProxNLP.vectorSpace 1) [t]] = .ok s ∧
    s.call 0 [x] = .ok (s', v) ∧ ∃ (φ : (Fin 1 → ℝ) → ℝ) (g : Fin 1 → ℝ), s'.gradient 0 [x] J0 = .ok (List.ofFn g) ∧ HasGradient φ g 0 ∧ φ 0 = v := by
  obtain ⟨s, hs⟩ : ∃ s, DistState.empty.run [DistOp.newUnit (ProxNLP.vectorSpace 1) [t]] = .ok s := ⟨_, rfl⟩
  have hn : noCopies [DistOp.newUnit (ProxNLP.vectorSpace 1) [t]] := by
    intro op hop
    simp only [List.mem_cons, List.not_mem_nil, or_false] at hop
    subst hop
    exact ⟨by simp, by simp⟩
  have hd : DiffTo (ProxNLP.vectorSpace 1) [t] [x] [x - t] := by
    intro out ho
    have ho' : out.length = 1 := ho
    simp [ProxNLP.vectorSpace, vSub, ho']
  obtain ⟨s', h1⟩ := ((C87_values_partial _ hn s hs).2 0 _ rfl).2 [x] [x - t] hd rfl rfl rfl
  obtain ⟨φ, g, -, h2, h3, h4⟩ := C87_gradient_partial _ hn s s' hs 0 _ rfl (Spec.vectorSpace 1) rfl (C43_vector_space_laws 1) rfl rfl
    (fun a b => by by_cases h : a = b <;> simp [h, eq_comm]) [x] rfl (C86_vector_space 1 [t] [x] rfl rfl 1 (Or.inr rfl)).1 _ h1 J0
  exact ⟨s, s', _, hs, h1, φ, g, h3, h4, h2⟩

/-- `C87_values_partial` is not vacuous: two costs on the line and the plane, one of them retargeted. -/
example :
    let ops := [DistOp.newUnit (ProxNLP.vectorSpace 1) [1], .new (ProxNLP.vectorSpace 2) [0, 1] 2 2 (fun a b => if a = b then 2 else 0),
      .updateTarget 0 [5], .call 1 [1, 1]]
    noCopies ops ∧ Demo.distObserve ops 0 [1] = .ok ([5], 8) ∧ Demo.distObserve ops 1 [3, 2] = .ok ([0, 1], 10) := by
  refine ⟨?_, by decide +kernel⟩
  intro op hop
  simp only [List.mem_cons, List.not_mem_nil, or_false] at hop
  rcases hop with rfl | rfl | rfl | rfl <;> exact ⟨by simp, by simp⟩

end ProxNLP
