import Verif.Spec.Shapes
import Mathlib.Tactic.Linarith

set_option linter.unusedSectionVars false

namespace ProxNLP

theorem offsets_get (l : List ℕ) : ∀ (c i : ℕ),
    (offsets c l)[i]? = (l[i]?).map (fun _ => c + (l.take i).sum) := by
  induction l with
  | nil => intro c i; simp [offsets]
  | cons n l ih =>
    intro c i
    cases i with
    | zero => simp [offsets]
    | succ i =>
      simp only [offsets, List.getElem?_cons_succ, List.take_succ_cons, List.sum_cons]
      rw [ih (c + n) i]
      cases l[i]? <;> simp [Nat.add_assoc]

theorem mapM_ok {α β : Type} {f : α → Except ShapeErr β} {g : α → β} :
    ∀ {l : List α}, (∀ a ∈ l, f a = .ok (g a)) → l.mapM f = .ok (l.map g)
  | [], _ => rfl
  | a :: l, h => by
    rw [List.mapM_cons, h a List.mem_cons_self,
      mapM_ok (fun b hb => h b (List.mem_cons_of_mem _ hb))]
    rfl

theorem mapM_error {α β : Type} {f : α → Except ShapeErr β} {e : ShapeErr} :
    ∀ {l : List α}, (∃ a ∈ l, f a = .error e) → (∀ a ∈ l, f a = .error e ∨ ∃ b, f a = .ok b) →
      l.mapM f = .error e
  | [], h, _ => by obtain ⟨a, ha, _⟩ := h; simp at ha
  | a :: l, h, h' => by
    rw [List.mapM_cons]
    rcases h' a List.mem_cons_self with he | ⟨b, hb⟩
    · rw [he]; rfl
    · rw [hb]
      obtain ⟨c, hc, hce⟩ := h
      rcases List.mem_cons.1 hc with rfl | hc
      · rw [hb] at hce; cases hce
      · have := mapM_error (f := f) (e := e) ⟨c, hc, hce⟩
          (fun d hd => h' d (List.mem_cons_of_mem _ hd))
        simp only [bind, Except.bind] at this ⊢
        rw [this]

/-- The views a problem with constraints `l` takes. -/
def stdViews (l : List ℕ) : List (ℕ × ℕ) :=
  (List.range l.length).map (fun i => ((l.take i).sum, l.getD i 0))

theorem stdViews_get (l : List ℕ) (i : ℕ) :
    (stdViews l)[i]? = (l[i]?).map (fun n => ((l.take i).sum, n)) := by
  unfold stdViews
  rw [List.getElem?_map]
  by_cases h : i < l.length
  · rw [List.getElem?_range h, List.getElem?_eq_getElem h]
    simp only [Option.map_some, List.getD_eq_getElem _ _ h]
  · rw [List.getElem?_eq_none (by simpa using h), List.getElem?_eq_none (by simpa using h)]
    rfl

/-- The stacked vector a problem with constraints `l` allocates. -/
def stdStk (l : List ℕ) : Stk := ⟨l.sum, stdViews l, true⟩

/-- The stacked Jacobian. -/
def stdJac (l : List ℕ) (ndx : ℕ) : MStk := ⟨l.sum, ndx, stdViews l, true⟩

/-- The stacked Hessian. -/
def stdHess (l : List ℕ) (ndx : ℕ) : MStk :=
  ⟨l.length * ndx, ndx, (List.range l.length).map (fun i => (i * ndx, ndx)), true⟩

theorem stdStk_view (l : List ℕ) (i : ℕ) : (stdStk l).view i = l[i]? := by
  simp only [Stk.view, stdStk, if_true, stdViews_get]
  cases l[i]? <;> rfl

theorem stdJac_view (l : List ℕ) (ndx i : ℕ) :
    (stdJac l ndx).view i = (l[i]?).map (fun n => (n, ndx)) := by
  simp only [MStk.view, stdJac, if_true, stdViews_get]
  cases l[i]? <;> rfl

theorem stdHess_view {l : List ℕ} {ndx i : ℕ} (h : i < l.length) :
    (stdHess l ndx).view i = some (ndx, ndx) := by
  simp only [MStk.view, stdHess, if_true]
  rw [List.getElem?_map, List.getElem?_range h]
  rfl

@[simp] theorem stdStk_len (l : List ℕ) : (stdStk l).len = l.sum := rfl
@[simp] theorem stdJac_rows (l : List ℕ) (n : ℕ) : (stdJac l n).rows = l.sum := rfl
@[simp] theorem stdJac_cols (l : List ℕ) (n : ℕ) : (stdJac l n).cols = n := rfl

theorem Stk.assign_same (b : Stk) : b.assign b.len = b := by simp [Stk.assign]

@[simp] theorem stdStk_assign (l : List ℕ) : (stdStk l).assign l.sum = stdStk l :=
  Stk.assign_same _

@[simp] theorem stdJac_assign (l : List ℕ) (n : ℕ) :
    (stdJac l n).assign l.sum n = stdJac l n := by
  simp [MStk.assign]

/-- The workspace `setup()` makes. -/
def stdW (nx ndx : ℕ) (l : List ℕ) (f : Bool) : WShape :=
  { nx := nx, ndx := ndx, numblocks := l.length, numdual := l.sum
    kkt := (ndx + l.sum, ndx + l.sum), rhs := ndx + l.sum, corr := ndx + l.sum
    err := ndx + l.sum, step := ndx + l.sum
    prim := (0, ndx), dual := (ndx, l.sum), stepLive := true
    signature := ndx + l.sum, fac := ndx + l.sum, facFixed := f, xPrev := nx, xTrial := nx
    lamsPrev := stdStk l, lamsTrial := stdStk l, proxGrad := ndx, proxHess := (ndx, ndx)
    dualRes := ndx, cstr := stdStk l, objGrad := ndx, objHess := (ndx, ndx)
    meritGrad := ndx, meritDual := l.sum
    jac := stdJac l ndx, hess := stdHess l ndx, jacProj := stdJac l ndx
    shift := stdStk l, plus := stdStk l, plusR := stdStk l, pdal := stdStk l, pdalR := stdStk l
    shiftPd := stdStk l, tmpDx := ndx }

/-- The results `setup()` makes. -/
def stdR (nx : ℕ) (l : List ℕ) : RShape := ⟨nx, stdStk l, l, l.length⟩

theorem block_new (nx ndx : ℕ) (l : List ℕ) (i : ℕ) :
    (PShape.new nx ndx l).block i = (l[i]?).map (fun n => ((l.take i).sum, n)) := by
  unfold PShape.block PShape.new PShape.reset
  simp only [offsets_get]
  cases l[i]? <;> simp

theorem take_sum_le (l : List ℕ) (i n : ℕ) (h : l[i]? = some n) :
    (l.take i).sum + n ≤ l.sum := by
  induction l generalizing i with
  | nil => simp at h
  | cons a l ih =>
    cases i with
    | zero => simp at h; subst h; simp
    | succ i =>
      have := ih i (by simpa using h)
      simp only [List.take_succ_cons, List.sum_cons]
      omega

theorem blocks_new (nx ndx : ℕ) (l : List ℕ) :
    (PShape.new nx ndx l).blocks l.sum = .ok (stdViews l) := by
  unfold PShape.blocks
  refine mapM_ok (g := fun i => ((l.take i).sum, l.getD i 0)) ?_
  intro i hi
  have hi : i < l.length := List.mem_range.1 hi
  have hg : l[i]? = some l[i] := List.getElem?_eq_getElem hi
  rw [block_new, hg]
  simp only [Option.map_some]
  rw [if_pos (take_sum_le l i _ hg), List.getD_eq_getElem _ _ hi]

theorem alloc_new (nx ndx : ℕ) (l : List ℕ) :
    Stk.alloc (PShape.new nx ndx l) = .ok (stdStk l) := by
  unfold Stk.alloc
  have h : (PShape.new nx ndx l).total = l.sum := rfl
  rw [h, blocks_new]
  rfl

theorem ldltSize_new (nx ndx : ℕ) (l : List ℕ) :
    (PShape.new nx ndx l).ldltSize = .ok (ndx + l.sum) := by
  unfold PShape.ldltSize
  have h2 : (List.range l.length).map (fun i => l.getD i 0) = l := by
    apply List.ext_getElem?
    intro i
    rw [List.getElem?_map]
    by_cases h : i < l.length
    · rw [List.getElem?_range h, List.getElem?_eq_getElem h]
      simp only [Option.map_some, List.getD_eq_getElem _ _ h]
    · rw [List.getElem?_eq_none (by simpa using h), List.getElem?_eq_none (by simpa using h)]
      rfl
  rw [mapM_ok (g := fun i => l.getD i 0)]
  · show Except.ok (ndx + ((List.range l.length).map (fun i => l.getD i 0)).sum) = _
    rw [h2]
  · intro i hi
    have hi : i < l.length := List.mem_range.1 hi
    have hg : (PShape.new nx ndx l).ncs[i]? = some l[i] := List.getElem?_eq_getElem hi
    rw [hg, List.getD_eq_getElem _ _ hi]

theorem wnew (nx ndx : ℕ) (l : List ℕ) (f : Bool) :
    WShape.new (PShape.new nx ndx l) f = .ok (stdW nx ndx l f) := by
  unfold WShape.new
  rw [ldltSize_new, alloc_new]
  have h : rowViews (PShape.new nx ndx l) (PShape.new nx ndx l).total = .ok (stdViews l) :=
    blocks_new nx ndx l
  simp only [bind, Except.bind, pure, Except.pure]
  rw [h]
  simp only [Except.ok.injEq]
  unfold stdW stdJac stdHess PShape.new PShape.reset
  simp

theorem rnew (nx ndx : ℕ) (l : List ℕ) :
    RShape.new (PShape.new nx ndx l) = .ok (stdR nx l) := by
  unfold RShape.new
  rw [alloc_new]
  rfl

theorem chk_pos {P : Prop} [Decidable P] (h : P) : chk P = .ok () := if_pos h

theorem chk_neg {P : Prop} [Decidable P] (h : ¬ P) : chk P = .error .undefined := if_neg h

theorem chk_bind {P : Prop} [Decidable P] {β : Type} {k : Unit → Except ShapeErr β} (h : P) :
    (chk P >>= k) = k () := by
  rw [chk_pos h]
  rfl

theorem segOk_new (nx ndx : ℕ) (l : List ℕ) {i : ℕ} (hi : i < l.length)
    {vs : List (Option ℕ)} (hv : ∀ v ∈ vs, v = l[i]?) :
    (PShape.new nx ndx l).segOk i l.sum vs = true := by
  have hg : l[i]? = some l[i] := List.getElem?_eq_getElem hi
  unfold PShape.segOk
  rw [block_new, hg]
  simp only [Option.map_some, Bool.and_eq_true, decide_eq_true_eq, List.all_eq_true]
  exact ⟨take_sum_le l i _ hg, fun v h => by rw [hv v h, hg]⟩

section Steps

variable (nx ndx : ℕ) (l : List ℕ) (f : Bool)

local notation "pp" => PShape.new nx ndx l
local notation "ww" => stdW nx ndx l f
local notation "rr" => stdR nx l

theorem evaluate_ok : evaluateShape pp ww nx = .ok () := by
  unfold evaluateShape
  refine (chk_bind ?_).trans (chk_pos ?_)
  · rfl
  · exact fun i _ => stdStk_view l i

theorem multipliers_ok : multipliersShape pp ww l.sum = .ok ww := by
  unfold multipliersShape
  have h : ∀ i < (pp).nrs.length, (stdStk l).view i = (pp).nrs[i]? ∧
      (stdStk l).view i = (pp).nrs[i]? := fun i _ => ⟨stdStk_view l i, stdStk_view l i⟩
  have e1 : (ww).shift.assign (ww).cstr.len = stdStk l := stdStk_assign l
  have e2 : (ww).shiftPd.assign (stdStk l).len = stdStk l := stdStk_assign l
  have e3 : (ww).plusR.assign (ww).plus.len = stdStk l := stdStk_assign l
  have e4 : (ww).pdalR.assign (ww).pdal.len = stdStk l := stdStk_assign l
  simp only [e1, e2, e3, e4]
  refine (chk_bind ?_).trans ((chk_bind ?_).trans ((chk_bind ?_).trans ((chk_bind ?_).trans
    ((chk_bind ?_).trans ?_))))
  · rfl
  · exact h
  · rfl
  · exact h
  · exact h
  · rfl

theorem derivatives_ok : derivativesShape pp ww nx = .ok ww := by
  unfold derivativesShape
  have h2 : ∀ i < (pp).nrs.length, (stdJac l ndx).view i =
      ((pp).nrs[i]?).map (fun n => (n, (pp).ndx)) := fun i _ => stdJac_view l ndx i
  have e1 : (ww).jacProj.assign (ww).jac.rows (ww).jac.cols = stdJac l ndx :=
    stdJac_assign l ndx
  simp only [e1]
  refine (chk_bind ?_).trans ((chk_bind ?_).trans ((chk_bind ?_).trans ((chk_bind ?_).trans
    ((chk_bind ?_).trans ?_))))
  · rfl
  · rfl
  · exact h2
  · exact h2
  · exact fun i _ => ⟨stdStk_view l i, stdStk_view l i⟩
  · rfl

theorem hessians_ok (b : Option ℕ) (k : HessKind)
    (hk : k = .bfgs → b = some ndx ∧ ndx = nx) :
    hessiansShape pp b ww nx k = .ok () := by
  cases k with
  | identity => rfl
  | bfgs =>
    obtain ⟨rfl, h⟩ := hk rfl
    subst h
    show chk _ = _
    refine chk_pos ?_
    exact ⟨rfl, rfl, rfl⟩
  | function =>
    unfold hessiansShape
    refine (chk_bind ?_).trans (chk_pos ?_)
    · exact ⟨rfl, rfl⟩
    · exact fun i hi => ⟨stdStk_view l i, stdHess_view hi⟩

theorem active_ok : activeShape pp ww rr = .ok () := by
  refine chk_pos ?_
  exact fun i _ => ⟨stdStk_view l i, rfl⟩

theorem merit_ok : meritShape pp ww (stdStk l) = .ok () := by
  refine chk_pos ?_
  exact fun i hi => ⟨hi, stdStk_view l i, stdStk_view l i⟩

theorem proxCall_ok : proxCallShape ⟨nx, ndx, nx⟩ nx = .ok () := chk_pos ⟨rfl, rfl⟩

theorem proxDeriv_ok : proxDerivShape ⟨nx, ndx, nx⟩ ww nx = .ok () := by
  refine chk_pos ?_
  exact ⟨rfl, rfl, rfl, rfl⟩

theorem rhs_ok : rhsShape pp ww rr = .ok () := by
  unfold rhsShape
  refine (chk_bind ?_).trans ((chk_bind ?_).trans (chk_pos ?_))
  · exact ⟨Nat.le_add_right _ _, Nat.le_add_right _ _⟩
  · exact ⟨rfl, rfl, rfl⟩
  · exact ⟨rfl, rfl, (Nat.add_sub_cancel_left (n := ndx) (m := l.sum)).symm⟩

theorem meritGrad_ok : meritGradShape pp ww rr = .ok ww := by
  unfold meritGradShape
  refine (chk_bind ?_).trans ((chk_bind ?_).trans ?_)
  · exact ⟨rfl, rfl⟩
  · intro i hi
    refine ⟨hi, segOk_new nx ndx l hi ?_⟩
    intro v hv
    simp only [List.mem_cons, List.not_mem_nil, or_false] at hv
    rcases hv with rfl | rfl <;> exact stdStk_view l i
  · rfl

theorem proxAdd_ok : proxAddShape pp ww = .ok () := by
  refine chk_pos ?_
  exact ⟨rfl, rfl⟩

theorem residuals_ok : residualsShape pp ww rr = .ok ww := by
  unfold residualsShape
  have e1 : (ww).shift.assign (ww).cstr.len = stdStk l := stdStk_assign l
  simp only [e1]
  refine (chk_bind ?_).trans ((chk_bind ?_).trans ((chk_bind ?_).trans ?_))
  · rfl
  · exact fun i hi => ⟨stdStk_view l i, stdStk_view l i, hi⟩
  · exact ⟨rfl, rfl⟩
  · rfl

theorem correction_ok : correctionShape pp ww rr = .ok () := by
  unfold correctionShape
  refine (chk_bind ?_).trans ((chk_bind ?_).trans ((chk_bind ?_).trans (chk_pos ?_)))
  · exact ⟨Nat.le_add_right _ _, rfl, rfl⟩
  · exact ⟨rfl, rfl⟩
  · exact ⟨rfl, rfl⟩
  · rfl

theorem assemble_ok (rho pd : Bool) : assembleShape pp ww rho pd = .ok () := by
  unfold assembleShape
  refine (chk_bind ?_).trans ((chk_bind ?_).trans ((chk_bind ?_).trans ((chk_bind ?_).trans
    (chk_pos ?_))))
  · exact ⟨Nat.le_add_right _ _, Nat.le_add_right _ _, Nat.le_add_left _ _, Nat.le_add_left _ _⟩
  · rfl
  · exact ⟨rfl, rfl⟩
  · exact fun _ => rfl
  · intro i hi
    refine ⟨hi, stdHess_view hi, fun _ => segOk_new nx ndx l hi ?_⟩
    intro v hv
    simp only [List.mem_cons, List.not_mem_nil, or_false] at hv
    rw [hv]; exact stdStk_view l i

theorem factor_ok : factorShape pp ww = .ok ww := by
  unfold factorShape
  refine (chk_bind ?_).trans ((chk_bind ?_).trans ?_)
  · exact ⟨Nat.le_add_right _ _, Nat.le_add_right _ _⟩
  · exact ⟨rfl, fun _ => rfl⟩
  · rfl

theorem solveStep_ok : solveStepShape ww = .ok ww := by
  unfold solveStepShape
  have h : (ww).assignStep (ww).rhs = ww := by simp [WShape.assignStep, stdW]
  simp only [h]
  refine (chk_bind ?_).trans ?_
  · rfl
  · rfl

theorem refineTurn_ok : refineTurnShape ww = .ok ww := by
  unfold refineTurnShape
  refine (chk_bind ?_).trans ((chk_bind ?_).trans ?_)
  · exact ⟨rfl, rfl⟩
  · exact ⟨rfl, rfl⟩
  · rfl

theorem dmerit_ok : dmeritShape ww = .ok () := by
  unfold dmeritShape
  refine (chk_bind ?_).trans (chk_pos ?_)
  · exact ⟨rfl, by simp [stdW], by simp [stdW]⟩
  · exact ⟨rfl, rfl⟩

theorem tryStep_ok : tryStepShape pp ww rr = .ok ww := by
  unfold tryStepShape
  refine (chk_bind ?_).trans ((chk_bind ?_).trans ((chk_bind ?_).trans ?_))
  · exact ⟨rfl, by simp [stdW], by simp [stdW]⟩
  · exact ⟨rfl, rfl, rfl⟩
  · rfl
  · have e1 : (ww).lamsTrial.assign (rr).lams.len = stdStk l := stdStk_assign l
    simp only [e1]
    rfl

theorem phi_ok : phiShape pp ⟨nx, ndx, nx⟩ ww rr = .ok ww := by
  have h1 : (ww).xTrial = nx := rfl
  have h2 : (ww).lamsTrial = stdStk l := rfl
  unfold phiShape
  simp only [tryStep_ok, h1, h2, stdStk_len, evaluate_ok, multipliers_ok, merit_ok, proxCall_ok,
    bind, Except.bind, pure, Except.pure]

theorem turns_ok {α : Type} {f : α → Except ShapeErr α} {a : α} (h : f a = .ok a) :
    ∀ n, turns f n a = .ok a
  | 0 => rfl
  | n + 1 => by
    unfold turns
    rw [h]
    exact turns_ok h n

theorem pass_ok (useB : Bool) (b : Option ℕ) (hb : useB = true → b = some ndx ∧ ndx = nx)
    (c : PassChoice) : passShape pp ⟨nx, ndx, nx⟩ useB b c (ww, rr) = .ok (ww, rr) := by
  have hh : hessiansShape pp b ww nx
      (if useB then .bfgs else if c.identity then .identity else .function) = .ok () := by
    apply hessians_ok
    intro hk
    cases useB with
    | true => exact hb rfl
    | false => cases hc : c.identity <;> simp [hc] at hk
  have hx : (rr).xOpt = nx := rfl
  have hl : (rr).lams = stdStk l := rfl
  have hll : (stdStk l).len = l.sum := rfl
  obtain ⟨rho, pd, idn, step⟩ := c
  unfold passShape
  have h1 := fun a => turns_ok (factor_ok nx ndx l f) a
  have h2 := fun a => turns_ok (refineTurn_ok nx ndx l f) a
  have h3 := fun d => turns_ok (f := fun w => phiShape pp ⟨nx, ndx, nx⟩ w rr) (phi_ok nx ndx l f) d
  have h4 : (ww).xTrial = nx := rfl
  have h5 : (ww).lamsTrial = stdStk l := rfl
  have h6 : ({ xOpt := nx, lams := stdStk l, active := (rr).active, viol := (rr).viol } : RShape)
      = rr := rfl
  rcases step with _ | ⟨a, b', d⟩ <;> cases rho <;>
  simp only [hx, hl, hll, evaluate_ok, multipliers_ok, derivatives_ok, hh, active_ok, merit_ok,
    rhs_ok, meritGrad_ok, residuals_ok, proxCall_ok, proxDeriv_ok, proxAdd_ok, if_true,
    Bool.false_eq_true, if_false, correction_ok, assemble_ok, h1, solveStep_ok, h2, dmerit_ok,
    h3, tryStep_ok, h4, h5, h6, stdStk_assign, bind, Except.bind, pure, Except.pure]

theorem outer_ok (k : AcceptKind) :
    outerShape ⟨nx, ndx, nx⟩ k (ww, rr) = (⟨nx, ndx, nx⟩, ww, rr) := by
  cases k <;> simp [outerShape, stdW, stdR]

theorem run_ok (useB : Bool) (b : Option ℕ) (hb : useB = true → b = some ndx ∧ ndx = nx) :
    ∀ evs, runShape pp useB b (⟨nx, ndx, nx⟩, ww, rr) evs = .ok (⟨nx, ndx, nx⟩, ww, rr)
  | [] => rfl
  | e :: evs => by
    unfold runShape
    have : evShape pp useB b (⟨nx, ndx, nx⟩, ww, rr) e = .ok (⟨nx, ndx, nx⟩, ww, rr) := by
      cases e with
      | pass c =>
        simp only [evShape]
        rw [pass_ok nx ndx l f useB b hb c]
        rfl
      | outer k =>
        simp only [evShape, outer_ok]
        rfl
    rw [this]
    exact run_ok useB b hb evs

end Steps

/-- What the solver looks like after a history of calls in order: the workspace and results, if
any, are those of the constraints present at the last `setup()`, of which the current ones are an
extension. -/
structure ShapeInv (v : Spec.UserView) (s : SShape) : Prop where
  prob : s.p = PShape.new v.nx v.ndx v.nrs
  prox : s.prox = ⟨v.nx, v.ndx, v.nx⟩
  hess : s.hess = v.bfgs
  strat : v.strategy = true → s.bfgs = some v.ndx ∧ v.ndx = v.nx
  nostrat : v.strategy = false → s.bfgs = none
  none : v.everSetup = false → s.store = none
  some : v.everSetup = true → ∃ old f, old <+: v.nrs ∧ (v.ready = true ↔ old = v.nrs) ∧
    s.store = some (stdW v.nx v.ndx old f, stdR v.nx old)
  ready : v.ready = true → v.everSetup = true

theorem shapeInv_start (nx ndx : ℕ) (nrs : List ℕ) :
    ShapeInv (.start nx ndx nrs) (SShape.new (PShape.new nx ndx nrs)) where
  prob := rfl
  prox := rfl
  hess := rfl
  strat := fun h => by cases h
  nostrat := fun _ => rfl
  none := fun _ => rfl
  some := fun h => by cases h
  ready := fun h => by cases h

theorem shape_solve_ok {v : Spec.UserView} {s : SShape} (hi : ShapeInv v s) {x0 lams0 : ℕ}
    {evs : List SolveEv} (hr : v.ready = true) (hx : x0 = v.nx)
    (hb : v.bfgs = true → v.strategy = true) : s.solve x0 lams0 evs = .ok s := by
  obtain ⟨old, f, -, ho, hs⟩ := hi.some (hi.ready hr)
  have ho := ho.1 hr
  subst ho
  subst hx
  have hrun := run_ok v.nx v.ndx v.nrs f s.hess s.bfgs
    (fun h => hi.strat (hb (by rw [← hi.hess]; exact h))) evs
  unfold SShape.solve
  rw [hs]
  simp only []
  have e : (if lams0 = (stdW v.nx v.ndx v.nrs f).numdual then
      ((s.prox, { stdW v.nx v.ndx v.nrs f with
          lamsPrev := (stdW v.nx v.ndx v.nrs f).lamsPrev.assign lams0 },
        { stdR v.nx v.nrs with lams := (stdR v.nx v.nrs).lams.assign lams0 }) : RunShape)
      else (s.prox, stdW v.nx v.ndx v.nrs f, stdR v.nx v.nrs))
      = (⟨v.nx, v.ndx, v.nx⟩, stdW v.nx v.ndx v.nrs f, stdR v.nx v.nrs) := by
    split_ifs with h
    · have h : lams0 = v.nrs.sum := h
      subst h
      rw [hi.prox]
      simp [stdW, stdR]
    · rw [hi.prox]
  have e' := e
  simp only [stdW, stdR] at e' ⊢
  rw [e', hi.prob]
  simp only [stdW, stdR] at hrun
  rw [hrun]
  simp only [bind, Except.bind, pure, Except.pure, Except.ok.injEq]
  cases s
  simp only at hs hi ⊢
  simp only [hs, SShape.mk.injEq, true_and]
  have h1 := hi.prox
  have h2 := hi.prob
  simp only at h1 h2
  exact ⟨h2.symm, h1.symm, rfl⟩

theorem solveBlocks_ok {v : Spec.UserView} {s : SShape} (hi : ShapeInv v s) {x0 : ℕ}
    {lams0 : List ℕ} {evs : List SolveEv} (hr : v.ready = true) (hx : x0 = v.nx)
    (hl : lams0 = v.nrs) (hb : v.bfgs = true → v.strategy = true) :
    s.solveBlocks x0 lams0 evs = .ok s := by
  subst hl
  unfold SShape.solveBlocks
  have hp : s.p.nrs = v.nrs := by rw [hi.prob]; rfl
  rw [if_neg (by rw [hp]; simp), chk_pos]
  · exact shape_solve_ok hi hr hx hb
  · intro i h
    have ht : s.p.total = v.nrs.sum := by rw [hi.prob]; rfl
    rw [hp] at h
    rw [ht, hi.prob]
    refine segOk_new _ _ _ h ?_
    intro v' hv
    simp only [List.mem_cons, List.not_mem_nil, or_false] at hv
    exact hv

theorem setup_eq {v : Spec.UserView} {s : SShape} (hi : ShapeInv v s) :
    s.setup = if s.hess = true then
      (if v.ndx = v.nx then
        .ok { s with store := some (stdW v.nx v.ndx v.nrs s.ldltFixed, stdR v.nx v.nrs), bfgs := some v.ndx }
      else .error .thrown)
      else .ok { s with store := some (stdW v.nx v.ndx v.nrs s.ldltFixed, stdR v.nx v.nrs) } := by
  unfold SShape.setup
  have e1 : WShape.new s.p s.ldltFixed = .ok (stdW v.nx v.ndx v.nrs s.ldltFixed) := by rw [hi.prob, wnew]
  have e2 : RShape.new s.p = .ok (stdR v.nx v.nrs) := by rw [hi.prob, rnew]
  have e3 : s.p.ndx = v.ndx := by rw [hi.prob]; rfl
  have e4 : s.p.nx = v.nx := by rw [hi.prob]; rfl
  rw [e1, e2]
  simp only [bind, Except.bind, pure, Except.pure, e3, e4]

theorem shapeInv_op {v : Spec.UserView} {s : SShape} (hi : ShapeInv v s) {o : UserOp}
    (ha : v.allowed o) : ∃ t, s.op o = .ok t ∧ ShapeInv (v.after o) t := by
  cases o with
  | addConstraint nr =>
    refine ⟨_, rfl, ?_⟩
    refine ⟨?_, hi.prox, hi.hess, hi.strat, hi.nostrat, hi.none, ?_, ?_⟩
    · simp only [Spec.UserView.after]
      rw [hi.prob]
      rfl
    · intro h
      obtain ⟨old, f, h1, -, h3⟩ := hi.some h
      refine ⟨old, f, h1.trans (List.prefix_append _ _), ?_, h3⟩
      simp only [Spec.UserView.after]
      constructor
      · intro h; cases h
      · intro h
        exfalso
        have := h1.length_le
        rw [h] at this
        simp at this
    · intro h; cases h
  | setup =>
    have hs := setup_eq hi
    rcases hbv : v.bfgs with _ | _
    · rw [if_neg (by rw [hi.hess, hbv]; simp)] at hs
      refine ⟨_, hs, hi.prob, hi.prox, hi.hess, ?_, ?_, ?_, ?_, fun _ => rfl⟩
      · intro h
        exact hi.strat (by simpa [Spec.UserView.after, hbv] using h)
      · intro h
        exact hi.nostrat (by simpa [Spec.UserView.after, hbv] using h)
      · intro h; cases h
      · intro _
        exact ⟨v.nrs, s.ldltFixed, List.prefix_refl _, ⟨fun _ => rfl, fun _ => rfl⟩, rfl⟩
    · have hn : v.ndx = v.nx := ha hbv
      rw [if_pos (by rw [hi.hess, hbv]), if_pos hn] at hs
      refine ⟨_, hs, hi.prob, hi.prox, hi.hess, ?_, ?_, ?_, ?_, fun _ => rfl⟩
      · intro _
        exact ⟨rfl, hn⟩
      · intro h
        simp [Spec.UserView.after, hbv] at h
      · intro h; cases h
      · intro _
        exact ⟨v.nrs, s.ldltFixed, List.prefix_refl _, ⟨fun _ => rfl, fun _ => rfl⟩, rfl⟩
  | useBfgs b =>
    exact ⟨_, rfl, hi.prob, hi.prox, rfl, hi.strat, hi.nostrat, hi.none, hi.some, hi.ready⟩
  | useLdlt b =>
    exact ⟨_, rfl, hi.prob, hi.prox, hi.hess, hi.strat, hi.nostrat, hi.none, hi.some, hi.ready⟩
  | solve x0 l evs =>
    obtain ⟨h1, h2, h3⟩ := ha
    exact ⟨s, shape_solve_ok hi h1 h2 h3, hi⟩
  | solveBlocks x0 l evs =>
    obtain ⟨h1, h2, h3, h4⟩ := ha
    exact ⟨s, solveBlocks_ok hi h1 h2 h3 h4, hi⟩
  | editConstraints nrs => exact ha.elim
  | setManifold nx ndx => exact ha.elim

theorem shapeInv_ops : ∀ {h : List UserOp} {v : Spec.UserView} {s : SShape}, ShapeInv v s →
    v.inOrder h → ∃ t, s.ops h = .ok t ∧ ShapeInv (v.afterAll h) t
  | [], v, s, hi, _ => ⟨s, rfl, hi⟩
  | o :: os, v, s, hi, ho => by
    obtain ⟨t, ht, hit⟩ := shapeInv_op hi ho.1
    obtain ⟨t', ht', hit'⟩ := shapeInv_ops hit ho.2
    refine ⟨t', ?_, hit'⟩
    unfold SShape.ops
    rw [ht]
    exact ht'

theorem stdR_fits (nx : ℕ) (l : List ℕ) : Spec.ResultsFit nx l (stdR nx l) where
  point := rfl
  total := rfl
  count := by simp [stdR, stdStk, stdViews]
  live := fun _ => rfl
  lengths := fun i h => by
    show (stdStk l).view i = _
    rw [stdStk_view, List.getElem?_eq_getElem h]
  starts := fun i h => by
    show ((stdViews l)[i]?).map Prod.fst = _
    rw [stdViews_get, List.getElem?_eq_getElem h]
    rfl
  active := rfl
  violations := rfl

/-- A first pass with a workspace built for fewer constraints, or from a point of another length,
fails in `evaluate`. -/
theorem pass_stale {nx ndx : ℕ} {l old : List ℕ} {q : ProxShape} {useB : Bool} {b : Option ℕ}
    {c : PassChoice} {w : WShape} {r : RShape} (hw : w.cstr = stdStk old)
    (h : r.xOpt ≠ nx ∨ old.length < l.length) :
    passShape (PShape.new nx ndx l) q useB b c (w, r) = .error .undefined := by
  have he : evaluateShape (PShape.new nx ndx l) w r.xOpt = .error .undefined := by
    unfold evaluateShape
    by_cases hx : r.xOpt = nx
    · have hl : old.length < l.length := h.resolve_left (fun h => h hx)
      rw [chk_pos (show r.xOpt = (PShape.new nx ndx l).nx from hx), chk_neg]
      · rfl
      · intro hall
        have h1 := hall old.length hl
        rw [hw, stdStk_view, List.getElem?_eq_none (Nat.le_refl _)] at h1
        have h2 : (PShape.new nx ndx l).nrs[old.length]? = some l[old.length] :=
          List.getElem?_eq_getElem hl
        rw [h2] at h1
        cases h1
    · rw [chk_neg (show ¬ r.xOpt = (PShape.new nx ndx l).nx from hx)]
      rfl
  unfold passShape
  simp only [he]
  rfl

/-- BFGS selected, but no `setup()` ran with it. -/
theorem pass_nostrategy {nx ndx : ℕ} {l : List ℕ} {f : Bool} {c : PassChoice} :
    passShape (PShape.new nx ndx l) ⟨nx, ndx, nx⟩ true none c (stdW nx ndx l f, stdR nx l)
      = .error .thrown := by
  have hx : (stdR nx l).xOpt = nx := rfl
  have hl : (stdR nx l).lams = stdStk l := rfl
  unfold passShape
  simp only [hx, hl, stdStk_len, evaluate_ok, multipliers_ok, derivatives_ok, if_true,
    hessiansShape, bind, Except.bind]

end ProxNLP
