import Verif.Spec.Calls
import Mathlib.Data.List.Basic
import Mathlib.Tactic.Linarith

/-! Lemmas on computations that make calls (`Calls`): composition, logs, and what the parts of the solver call. -/

set_option linter.unusedSectionVars false

namespace ProxNLP

open Spec

variable {X K : Type} {nc : ℕ} {d : Fin nc → ℕ} {n : ℕ} {R R' : Type}

/-- Along every run of `t` (whatever is answered) that starts after the calls `l`, every call `q` is allowed (`Ok`) after the calls before
it, and result and final log satisfy `Q`. -/
def Calls.All (Ok : List (CallRec X K nc d) → Query X K nc d → Prop) :
    Calls X K nc d n R → List (CallRec X K nc d) → (R → List (CallRec X K nc d) → Prop) → Prop
  | .ret r, l, Q => Q r l
  | .call q k, l, Q => Ok l q ∧ ∀ a, (k a).All Ok (l ++ [(q, a.isSome)]) Q

variable {Ok : List (CallRec X K nc d) → Query X K nc d → Prop}

theorem andThen_some {A : Type} (v : A) (r : R) (f : A → Calls X K nc d n R) : Calls.andThen (some v) r f = f v := rfl

theorem all_mono {t : Calls X K nc d n R} {l : List (CallRec X K nc d)} {Q Q' : R → List (CallRec X K nc d) → Prop}
    (h : t.All Ok l Q) (hQ : ∀ r l', Q r l' → Q' r l') : t.All Ok l Q' := by
  induction t generalizing l with
  | ret r => exact hQ _ _ h
  | call q k ih => exact ⟨h.1, fun a => ih a (h.2 a)⟩

theorem all_bind {t : Calls X K nc d n R} {f : R → Calls X K nc d n R'} {l : List (CallRec X K nc d)}
    {Q : R → List (CallRec X K nc d) → Prop} {Q' : R' → List (CallRec X K nc d) → Prop}
    (h : t.All Ok l Q) (hf : ∀ r l', Q r l' → (f r).All Ok l' Q') : (t.bind f).All Ok l Q' := by
  induction t generalizing l with
  | ret r => exact hf _ _ h
  | call q k ih => exact ⟨h.1, fun a => ih a (h.2 a)⟩

theorem all_run {σ : Type} (U : FnObjects X K nc d n σ) {t : Calls X K nc d n R} {l : List (CallRec X K nc d)}
    {Q : R → List (CallRec X K nc d) → Prop} (h : t.All Ok l Q) (s : σ) :
    Q (t.run U s l).1 (t.run U s l).2.2 ∧
      ∃ new, (t.run U s l).2.2 = l ++ new ∧ ∀ pre q b post, new = pre ++ (q, b) :: post → Ok (l ++ pre) q := by
  induction t generalizing l s with
  | ret r => exact ⟨h, [], by simp [Calls.run], by simp⟩
  | call q k ih =>
    obtain ⟨h1, new, hn, h2⟩ := ih (U q s).1 (h.2 (U q s).1) (U q s).2
    refine ⟨h1, (q, (U q s).1.isSome) :: new, by simp [Calls.run, hn], ?_⟩
    intro pre q' b post he
    cases pre with
    | nil =>
      simp only [List.nil_append, List.cons.injEq, Prod.mk.injEq] at he
      rw [← he.1.1]; simpa using h.1
    | cons e pre =>
      simp only [List.cons_append, List.cons.injEq] at he
      have := h2 pre q' b post he.2
      rw [he.1] at this
      simpa using this

theorem run_bind {σ : Type} (U : FnObjects X K nc d n σ) (t : Calls X K nc d n R) (f : R → Calls X K nc d n R') (s : σ)
    (l : List (CallRec X K nc d)) :
    (t.bind f).run U s l = (f (t.run U s l).1).run U (t.run U s l).2.1 (t.run U s l).2.2 := by
  induction t generalizing s l with
  | ret r => rfl
  | call q k ih => exact ih _ _ _

/-! ### Which calls are made -/

/-- the calls of one evaluation -/
def evalCalls (x : X) : List (Query X K nc d) := .cost x :: (List.finRange nc).map fun i => .cstr i x

/-- the calls for the first derivatives -/
def derivCalls (x : X) : List (Query X K nc d) := .grad x :: (List.finRange nc).map fun i => .jac i x

/-- the result and log `l'` of making the calls `qs` in order until one throws, after `l` -/
def Follow {A : Type} (qs : List (Query X K nc d)) (l : List (CallRec X K nc d)) (r : Option A) (l' : List (CallRec X K nc d)) : Prop :=
  (r.isSome → l' = l ++ qs.map fun q => (q, true)) ∧ ∃ new, l' = l ++ new ∧ (new.map Prod.fst).Sublist qs

theorem follow_nil {A : Type} (l : List (CallRec X K nc d)) (r : Option A) : Follow [] l r l :=
  ⟨by simp, [], by simp, by simp⟩

theorem follow_throw {A : Type} (q : Query X K nc d) (qs : List (Query X K nc d)) (l : List (CallRec X K nc d)) :
    Follow (A := A) (q :: qs) l none (l ++ [(q, false)]) :=
  ⟨by simp, [(q, false)], rfl, by simp⟩

theorem follow_cons {A : Type} {q : Query X K nc d} {qs : List (Query X K nc d)} {l l' : List (CallRec X K nc d)} {r : Option A}
    (h : Follow qs (l ++ [(q, true)]) r l') : Follow (q :: qs) l r l' := by
  refine ⟨fun hr => by rw [h.1 hr]; simp, ?_⟩
  obtain ⟨new, h1, h2⟩ := h.2
  exact ⟨(q, true) :: new, by simp [h1], by simpa using h2⟩

theorem follow_map {A B : Type} {qs : List (Query X K nc d)} {l l' : List (CallRec X K nc d)} {r : Option A} (f : A → B)
    (h : Follow qs l r l') : Follow qs l (r.map f) l' :=
  ⟨fun hr => h.1 (by simpa using hr), h.2⟩

/-- a derivative is only requested at a point at which everything has been evaluated -/
def DerivOk (l : List (CallRec X K nc d)) (q : Query X K nc d) : Prop := q.order ≠ 0 → ∀ o, EvaluatedAt o q.point l

/-- all objects have been evaluated at `x`, and nothing else since -/
def FreshAt (x : X) (l : List (CallRec X K nc d)) : Prop := ∀ o, EvaluatedAt o x l

theorem freshAt_append {x : X} {l : List (CallRec X K nc d)} (h : FreshAt x l) {new : List (CallRec X K nc d)}
    (hn : ∀ e ∈ new, e.1.point = x ∧ e.2 = true) : FreshAt x (l ++ new) := by
  intro o
  obtain ⟨pre, q, mid, h1, h2, h3, h4, h5⟩ := h o
  refine ⟨pre, q, mid ++ new, by simp [h1], h2, h3, h4, ?_⟩
  intro e he
  rcases List.mem_append.1 he with he | he
  · exact h5 e he
  · exact hn e he

theorem freshAt_eval (x : X) (l : List (CallRec X K nc d)) :
    FreshAt x (l ++ (evalCalls x).map fun q => (q, true)) := by
  intro o
  cases o with
  | none =>
    refine ⟨l, .cost x, (List.finRange nc).map fun i => (.cstr i x, true), by simp [evalCalls], rfl, rfl, rfl, ?_⟩
    intro e he
    obtain ⟨i, -, rfl⟩ := List.mem_map.1 he
    exact ⟨rfl, rfl⟩
  | some i =>
    obtain ⟨u, v, huv⟩ := List.append_of_mem (List.mem_finRange i)
    refine ⟨l ++ (.cost x, true) :: u.map (fun i => (.cstr i x, true)), .cstr i x, v.map (fun i => (.cstr i x, true)), ?_, rfl, rfl, rfl, ?_⟩
    · simp [evalCalls, huv]
      rfl
    · intro e he
      obtain ⟨i, -, rfl⟩ := List.mem_map.1 he
      exact ⟨rfl, rfl⟩

/-! ### The problem -/

theorem cstrsP_all (x : X) (is : List (Fin nc)) (acc : ∀ i, Fin (d i) → K) (l : List (CallRec X K nc d)) :
    (cstrsP (n := n) x is acc).All DerivOk l (Follow (is.map fun i => .cstr i x) l) := by
  induction is generalizing acc l with
  | nil => exact follow_nil _ _
  | cons i is ih =>
    refine ⟨fun h => absurd rfl h, fun a => ?_⟩
    cases a with
    | none => exact follow_throw _ _ _
    | some v => exact all_mono (ih _ _) fun r l' h => follow_cons h

theorem evaluateP_all [Zero K] (x : X) (l : List (CallRec X K nc d)) :
    (evaluateP (K := K) (d := d) (n := n) x).All DerivOk l (Follow (evalCalls x) l) := by
  refine ⟨fun h => absurd rfl h, fun a => ?_⟩
  cases a with
  | none => exact follow_throw _ _ _
  | some v =>
    refine all_bind (cstrsP_all x _ _ _) ?_
    intro r l' h
    exact follow_map _ (follow_cons h)

theorem jacsP_all (x : X) (is : List (Fin nc)) (acc : ∀ i, Fin (d i) → Fin n → K) (l : List (CallRec X K nc d)) (hl : FreshAt x l) :
    (jacsP x is acc).All DerivOk l (Follow (is.map fun i => .jac i x) l) := by
  induction is generalizing acc l with
  | nil => exact follow_nil _ _
  | cons i is ih =>
    refine ⟨fun _ => hl, fun a => ?_⟩
    cases a with
    | none => exact follow_throw _ _ _
    | some v =>
      refine all_mono (ih _ _ (freshAt_append hl ?_)) fun r l' h => follow_cons h
      simp [Query.point]

theorem derivsP_all [Zero K] (x : X) (l : List (CallRec X K nc d)) (hl : FreshAt x l) :
    (derivsP (K := K) (d := d) (n := n) x).All DerivOk l (Follow (derivCalls x) l) := by
  refine ⟨fun _ => hl, fun a => ?_⟩
  cases a with
  | none => exact follow_throw _ _ _
  | some v =>
    refine all_bind (jacsP_all x _ _ _ (freshAt_append hl (by simp [Query.point]))) ?_
    intro r l' h
    exact follow_map _ (follow_cons h)

/-- the calls for the second derivatives of the constraints -/
def vhpCalls (off : Fin nc → Bool) (all : Bool) (x : X) (lam : Fin (∑ i, d i) → K) (is : List (Fin nc)) : List (Query X K nc d) :=
  (is.filter fun i => !off i || all).map fun i => .vhp i x (segOf lam i)

theorem vhpsP_all [Zero K] (off : Fin nc → Bool) (all : Bool) (x : X) (lam : Fin (∑ i, d i) → K) (is : List (Fin nc))
    (acc : List (Bool × Matrix (Fin n) (Fin n) K)) (l : List (CallRec X K nc d)) (hl : FreshAt x l) :
    (vhpsP off all x lam is acc).All DerivOk l (Follow (vhpCalls off all x lam is) l) := by
  induction is generalizing acc l with
  | nil => exact follow_nil _ _
  | cons i is ih =>
    unfold vhpsP
    by_cases hc : (!off i || all) = true
    · rw [if_pos hc]
      have he : vhpCalls off all x lam (i :: is) = .vhp i x (segOf lam i) :: vhpCalls off all x lam is := by
        simp only [vhpCalls]; rw [List.filter_cons_of_pos (by simpa using hc)]; rfl
      rw [he]
      refine ⟨fun _ => hl, fun a => ?_⟩
      cases a with
      | none => exact follow_throw _ _ _
      | some v =>
        refine all_mono (ih _ _ (freshAt_append hl ?_)) fun r l' h => follow_cons h
        simp [Query.point]
    · rw [if_neg hc]
      have he : vhpCalls off all x lam (i :: is) = vhpCalls off all x lam is := by
        simp only [vhpCalls]; rw [List.filter_cons_of_neg (by simpa using hc)]
      rw [he]
      exact ih _ _ hl

/-- the calls for the second derivatives -/
def hessCalls (approx : HessApprox) (off : Fin nc → Bool) (x : X) (lam : Fin (∑ i, d i) → K) : List (Query X K nc d) :=
  match approx with
  | .bfgs => []
  | .identity => []
  | _ => .hess x :: vhpCalls off (approx == .exact) x lam (List.finRange nc)

theorem hessP_all [Zero K] (approx : HessApprox) (off : Fin nc → Bool) (x : X) (lam : Fin (∑ i, d i) → K) (l : List (CallRec X K nc d))
    (hl : FreshAt x l) : (hessP (n := n) approx off x lam).All DerivOk l (Follow (hessCalls approx off x lam) l) := by
  cases approx with
  | bfgs => exact follow_nil _ _
  | identity => exact follow_nil _ _
  | _ =>
    refine ⟨fun _ => hl, fun a => ?_⟩
    cases a with
    | none => exact follow_throw _ _ _
    | some v =>
      refine all_bind (vhpsP_all off _ x lam _ _ _ (freshAt_append hl (by simp [Query.point]))) ?_
      intro r l' h
      exact follow_map _ (follow_cons h)

/-! ### The solver: order and number of the calls -/

/-- 1 for values, 0 for derivatives -/
def isVal (j : ℕ) : ℕ := if j = 0 then 1 else 0

theorem numCalls_append (o : Option (Fin nc)) (j : ℕ) (l l' : List (CallRec X K nc d)) :
    numCalls o j (l ++ l') = numCalls o j l + numCalls o j l' := by
  simp [numCalls]

theorem numCalls_le {A : Type} {qs : List (Query X K nc d)} {l l' : List (CallRec X K nc d)} {r : Option A} (h : Follow qs l r l')
    (o : Option (Fin nc)) (j : ℕ) : numCalls o j l' ≤ numCalls o j l + qs.countP fun q => q.obj = o ∧ q.order = j := by
  obtain ⟨new, h1, h2⟩ := h.2
  rw [h1, numCalls_append]
  have := h2.countP_le (p := fun q => decide (q.obj = o ∧ q.order = j))
  rw [List.countP_map] at this
  exact Nat.add_le_add_left this _

theorem countP_finRange (o : Option (Fin nc)) : (List.finRange nc).countP (fun i => some i = o) ≤ if o = none then 0 else 1 := by
  cases o with
  | none => simp
  | some a =>
    have h := List.nodup_iff_count_le_one.1 (List.nodup_finRange nc) a
    simp only [reduceCtorEq, if_false]
    refine le_trans (le_of_eq ?_) h
    unfold List.count
    congr 1
    funext i
    simp [beq_eq_decide]

theorem count_calls (q0 : Query X K nc d) (f : Fin nc → Query X K nc d) (is : List (Fin nc)) (his : is.Sublist (List.finRange nc)) (k : ℕ)
    (h0 : q0.obj = none ∧ q0.order = k) (hf : ∀ i, (f i).obj = some i ∧ (f i).order = k) (o : Option (Fin nc)) (j : ℕ) :
    (q0 :: is.map f).countP (fun q => q.obj = o ∧ q.order = j) ≤ if j = k then 1 else 0 := by
  rw [List.countP_cons, List.countP_map]
  by_cases hj : j = k
  · rw [if_pos hj]
    have h1 : is.countP ((fun q : Query X K nc d => decide (q.obj = o ∧ q.order = j)) ∘ f) ≤ if o = none then 0 else 1 := by
      refine le_trans (his.countP_le) (le_trans (le_of_eq ?_) (countP_finRange o))
      congr 1
      funext i
      simp [hf i, hj]
    simp only [h0.1, h0.2, hj] at h1 ⊢
    cases o with
    | none => simpa using h1
    | some a => simpa using h1
  · rw [if_neg hj]
    have : is.countP ((fun q : Query X K nc d => decide (q.obj = o ∧ q.order = j)) ∘ f) = 0 := by
      rw [List.countP_eq_zero]
      intro i _
      simp [hf i, Ne.symm hj]
    rw [this]
    simp [h0, Ne.symm hj]

theorem count_eval (x : X) (o : Option (Fin nc)) (j : ℕ) :
    (evalCalls (K := K) (d := d) x).countP (fun q => q.obj = o ∧ q.order = j) ≤ if j = 0 then 1 else 0 :=
  count_calls _ _ _ (List.Sublist.refl _) 0 ⟨rfl, rfl⟩ (fun _ => ⟨rfl, rfl⟩) o j

theorem count_deriv (x : X) (o : Option (Fin nc)) (j : ℕ) :
    (derivCalls (K := K) (d := d) x).countP (fun q => q.obj = o ∧ q.order = j) ≤ if j = 1 then 1 else 0 :=
  count_calls _ _ _ (List.Sublist.refl _) 1 ⟨rfl, rfl⟩ (fun _ => ⟨rfl, rfl⟩) o j

theorem count_hess (approx : HessApprox) (off : Fin nc → Bool) (x : X) (lam : Fin (∑ i, d i) → K) (o : Option (Fin nc)) (j : ℕ) :
    (hessCalls approx off x lam).countP (fun q => q.obj = o ∧ q.order = j) ≤ if j = 2 then 1 else 0 := by
  cases approx with
  | bfgs => simp [hessCalls]
  | identity => simp [hessCalls]
  | _ => exact count_calls _ _ _ List.filter_sublist 2 ⟨rfl, rfl⟩ (fun _ => ⟨rfl, rfl⟩) o j

/-- at most `e` evaluations between the two logs, and no derivatives -/
def Evals (e : ℕ) (l l' : List (CallRec X K nc d)) : Prop := ∀ o j, numCalls o j l' ≤ numCalls o j l + e * isVal j

theorem evals_refl (l : List (CallRec X K nc d)) (e : ℕ) : Evals e l l := fun _ _ => Nat.le_add_right _ _

theorem Evals.trans {e e' : ℕ} {l l' l'' : List (CallRec X K nc d)} (h : Evals e l l') (h' : Evals e' l' l'') : Evals (e + e') l l'' := by
  intro o j
  have h1 := h o j
  have h2 := h' o j
  rw [Nat.add_mul]
  omega

theorem Evals.mono {e e' : ℕ} {l l' : List (CallRec X K nc d)} (h : Evals e l l') (he : e ≤ e') : Evals e' l l' := fun o j =>
  le_trans (h o j) (Nat.add_le_add_left (Nat.mul_le_mul_right _ he) _)

section
variable {B : Type} [Field K] [LinearOrder K] [IsStrictOrderedRing K]

theorem phiP_all (C : StepCfg X K n (∑ i, d i)) (i : StepIn X K (Hidden K n (∑ i, d i)) n (∑ i, d i)) (dx : Fin n → K)
    (dlam : Fin (∑ i, d i) → K) (alpha : K) (b : Mults K (∑ i, d i)) (l : List (CallRec X K nc d)) :
    (phiP C i dx dlam alpha b).All DerivOk l fun _ l' => Evals 1 l l' := by
  refine all_bind (evaluateP_all _ l) ?_
  intro r l' h
  have : Evals 1 l l' := fun o j => by
    have h1 := numCalls_le h o j
    have h2 := count_eval (K := K) (d := d) (C.integrate i.x fun j => alpha * dx j) o j
    unfold isVal
    omega
  cases r with
  | none => exact this
  | some fc => exact this

theorem lsFirstP_all {phi : K → B → Calls X K nc d n (Option K × B)} (hphi : ∀ a b l, (phi a b).All DerivOk l fun _ l' => Evals 1 l l')
    (alphaMin : K) (fuel : ℕ) (alpha : K) (tr : List K) (b : B) (l : List (CallRec X K nc d)) :
    (lsFirstP phi alphaMin fuel alpha tr b).All DerivOk l fun _ l' =>
      ∀ N : ℕ, alpha * (1 / 2) ^ (N + 1) ≤ alphaMin → Evals (N + 1) l l' := by
  induction fuel generalizing alpha tr b l with
  | zero => exact fun N _ => evals_refl l _
  | succ fuel ih =>
    refine all_bind (hphi alpha b l) ?_
    rintro ⟨r, b'⟩ l' h
    have h1 : ∀ N : ℕ, Evals (N + 1) l l' := fun N => h.mono (by omega)
    cases r with
    | some v => exact fun N _ => h1 N
    | none =>
      show Calls.All DerivOk (if alpha * (1 / 2) ≤ alphaMin then _ else _) l' _
      by_cases ha : alpha * (1 / 2) ≤ alphaMin
      · rw [if_pos ha]
        exact fun N _ => h1 N
      · rw [if_neg ha]
        refine all_mono (ih _ _ _ _) ?_
        intro r l'' h2 N hN
        cases N with
        | zero => exact absurd (by simpa using hN) ha
        | succ N =>
          have := h.trans (h2 N (by rw [pow_succ'] at hN; rwa [mul_assoc]))
          exact this.mono (by omega)

theorem lsLoopP_all (sqrt : K → K) (sing : LSSample K → LSSample K → K → K → Option K) {phi : K → B → Calls X K nc d n (Option K × B)}
    (hphi : ∀ a b l, (phi a b).All DerivOk l fun _ l' => Evals 1 l l') (o : LSOptions K) (phi0 dphi0 : K) (tr0 : List K) (k : ℕ) (alpha : K)
    (latest previous : LSSample K) (tr : List K) (b : B) (l : List (CallRec X K nc d)) :
    (lsLoopP sqrt sing phi o phi0 dphi0 tr0 k alpha latest previous tr b).All DerivOk l fun _ l' => Evals k l l' := by
  induction k generalizing alpha latest previous tr b l with
  | zero => exact evals_refl l _
  | succ k ih =>
    unfold lsLoopP
    split_ifs with hc
    · exact evals_refl l _
    · refine all_bind (hphi _ b l) ?_
      rintro ⟨r, b'⟩ l' h
      cases r with
      | none =>
        refine all_mono (ih _ _ _ _ _ _) ?_
        intro r l'' h2
        exact (h.trans h2).mono (by omega)
      | some v =>
        dsimp only
        split_ifs with ha
        · exact h.mono (by omega)
        · refine all_mono (ih _ _ _ _ _ _) ?_
          intro r l'' h2
          exact (h.trans h2).mono (by omega)

theorem lsRunP_all (sqrt : K → K) (sing : LSSample K → LSSample K → K → K → Option K) {phi : K → B → Calls X K nc d n (Option K × B)}
    (hphi : ∀ a b l, (phi a b).All DerivOk l fun _ l' => Evals 1 l l') (o : LSOptions K) (phi0 dphi0 : K) (fuel : ℕ) (b : B)
    (l : List (CallRec X K nc d)) :
    (lsRunP sqrt sing phi o phi0 dphi0 fuel b).All DerivOk l fun _ l' =>
      ∀ N : ℕ, (1 / 2 : K) ^ (N + 1) ≤ o.alphaMin → Evals (N + 1 + o.maxNumSteps) l l' := by
  refine all_bind (lsFirstP_all hphi o.alphaMin fuel 1 [] b l) ?_
  rintro ⟨r, b'⟩ l' h
  have h1 : ∀ N : ℕ, (1 / 2 : K) ^ (N + 1) ≤ o.alphaMin → Evals (N + 1) l l' := fun N hN => h N (by rwa [one_mul])
  cases r with
  | none => exact fun N hN => (h1 N hN).mono (by omega)
  | some r =>
    obtain ⟨alpha, latest, tr⟩ := r
    dsimp only
    split_ifs with ha
    · exact fun N hN => (h1 N hN).mono (by omega)
    · refine all_bind (lsLoopP_all sqrt sing hphi o phi0 dphi0 tr o.maxNumSteps alpha latest LSSample.default [] b' l') ?_
      intro r l'' h2 N hN
      exact (h1 N hN).trans h2

theorem stepP_all (C : StepCfg X K n (∑ i, d i)) (i : StepIn X K (Hidden K n (∑ i, d i)) n (∑ i, d i)) (l : List (CallRec X K nc d)) :
    (stepP C i).All DerivOk l fun _ l' =>
      ∀ N : ℕ, (1 / 2 : K) ^ (N + 1) ≤ C.ls.alphaMin → Evals (N + 1 + C.ls.maxNumSteps) l l' := by
  unfold stepP
  dsimp only
  cases stepDirection C i (computeMultipliers C.sets i.mu i.setMu C.beta i.ev.c i.lam i.lamPrev) with
  | error e => exact fun N _ => evals_refl l _
  | ok r =>
    obtain ⟨s, st⟩ := r
    refine all_bind (lsRunP_all C.sqrt C.sing (fun a b l => phiP_all C i _ _ a b l) C.ls _ _ C.fuel _ l) ?_
    rintro ⟨q, b⟩ l' h
    cases q with
    | none => exact h
    | some r => exact h

/-- What is known of the calls of a run of the inner or outer loop from `st` and `l`: `p` passes that did not end with a step, `k` steps. -/
def Counted (C : StepCfg X K n (∑ i, d i)) (p k : ℕ) (l l' : List (CallRec X K nc d)) : Prop :=
  ∀ N : ℕ, (1 / 2 : K) ^ (N + 1) ≤ C.ls.alphaMin → ∀ o j,
    numCalls o j l' ≤ numCalls o j l + p + k * (1 + (N + 1 + C.ls.maxNumSteps) * isVal j)

theorem counted_refl (C : StepCfg X K n (∑ i, d i)) (p k : ℕ) (l : List (CallRec X K nc d)) : Counted C p k l l := fun N _ o j => by
  rw [Nat.add_assoc]; exact Nat.le_add_right _ _

theorem Counted.trans {C : StepCfg X K n (∑ i, d i)} {p k p' k' : ℕ} {l l' l'' : List (CallRec X K nc d)} (h : Counted C p k l l')
    (h' : Counted C p' k' l' l'') : Counted C (p + p') (k + k') l l'' := fun N hN o j => by
  have h1 := h N hN o j
  have h2 := h' N hN o j
  rw [Nat.add_mul]
  omega

theorem Counted.mono {C : StepCfg X K n (∑ i, d i)} {p k p' k' : ℕ} {l l' : List (CallRec X K nc d)} (h : Counted C p k l l')
    (hp : p ≤ p') (hk : k ≤ k') : Counted C p' k' l l' := fun N hN o j => by
  have h1 := h N hN o j
  have := Nat.mul_le_mul_right (1 + (N + 1 + C.ls.maxNumSteps) * isVal j) hk
  omega

/-- the calls of one pass without the step -/
theorem pass_counted {A A' A'' : Type} (C : StepCfg X K n (∑ i, d i)) {off : Fin nc → Bool} {x : X} {lam : Fin (∑ i, d i) → K}
    {l l1 l2 l3 : List (CallRec X K nc d)} {r1 : Option A} {r2 : Option A'} {r3 : Option A''}
    (h1 : Follow (evalCalls x) l r1 l1) (h2 : Follow (derivCalls x) l1 r2 l2 ∨ l2 = l1)
    (h3 : Follow (hessCalls C.approx off x lam) l2 r3 l3 ∨ l3 = l2) (o : Option (Fin nc)) (j : ℕ) :
    numCalls o j l3 ≤ numCalls o j l + 1 := by
  have e1 := le_trans (numCalls_le h1 o j) (Nat.add_le_add_left (count_eval (K := K) (d := d) x o j) _)
  have e2 : numCalls o j l2 ≤ numCalls o j l1 + if j = 1 then 1 else 0 := by
    rcases h2 with h2 | h2
    · exact le_trans (numCalls_le h2 o j) (Nat.add_le_add_left (count_deriv (K := K) (d := d) x o j) _)
    · rw [h2]; exact Nat.le_add_right _ _
  have e3 : numCalls o j l3 ≤ numCalls o j l2 + if j = 2 then 1 else 0 := by
    rcases h3 with h3 | h3
    · exact le_trans (numCalls_le h3 o j) (Nat.add_le_add_left (count_hess C.approx off x lam o j) _)
    · rw [h3]; exact Nat.le_add_right _ _
  by_cases j0 : j = 0
  · subst j0; simp at e1 e2 e3; omega
  · by_cases j1 : j = 1
    · subst j1; simp at e1 e2 e3; omega
    · rw [if_neg j0] at e1
      rw [if_neg j1] at e2
      split_ifs at e3 <;> omega

/-- what a run of the inner loop has done -/
def InnerPost (C : StepCfg X K n (∑ i, d i)) (S : Settings K) (st : St X K (Hidden K n (∑ i, d i)) (∑ i, d i))
    (l : List (CallRec X K nc d)) : Except String (St X K (Hidden K n (∑ i, d i)) (∑ i, d i)) → List (CallRec X K nc d) → Prop
  | .ok st', l' => ∃ k, Counted C 1 k l l' ∧ st'.numIters = st.numIters + k ∧ st.numIters + k ≤ S.maxIters ∧ st'.alIters = st.alIters ∧
      (st'.numIters < S.maxIters → FreshAt st'.xOpt l')
  | .error _, l' => ∃ k, Counted C 0 k l l' ∧ st.numIters + k ≤ S.maxIters

theorem counted_pass (C : StepCfg X K n (∑ i, d i)) {l l' : List (CallRec X K nc d)} (h : ∀ o j, numCalls o j l' ≤ numCalls o j l + 1) :
    Counted C 1 0 l l' := fun N _ o j => by have := h o j; omega

theorem counted_step (C : StepCfg X K n (∑ i, d i)) {l l' l'' : List (CallRec X K nc d)} (h : ∀ o j, numCalls o j l' ≤ numCalls o j l + 1)
    (h' : ∀ N : ℕ, (1 / 2 : K) ^ (N + 1) ≤ C.ls.alphaMin → Evals (N + 1 + C.ls.maxNumSteps) l' l'') : Counted C 0 1 l l'' := fun N hN o j => by
  have h1 := h o j
  have h2 := h' N hN o j
  rw [Nat.one_mul]
  omega

theorem counted_pass_step (C : StepCfg X K n (∑ i, d i)) {l l' : List (CallRec X K nc d)} (h : ∀ o j, numCalls o j l' ≤ numCalls o j l + 1) :
    Counted C 0 1 l l' := counted_step C h fun _ _ => evals_refl _ _

theorem innerP_all (C : StepCfg X K n (∑ i, d i)) (off : Fin nc → Bool) (S : Settings K)
    (st : St X K (Hidden K n (∑ i, d i)) (∑ i, d i)) (l : List (CallRec X K nc d)) (hi : st.numIters < S.maxIters) :
    (innerP C off S st).All DerivOk l (InnerPost C S st l) := by
  induction hd : S.maxIters - st.numIters using Nat.strong_induction_on generalizing st l with
  | _ v ih =>
  subst hd
  rw [innerP]
  refine all_bind (evaluateP_all st.xOpt l) ?_
  intro r1 l1 h1
  have hfail : ∀ (l' : List (CallRec X K nc d)), (∀ o j, numCalls o j l' ≤ numCalls o j l + 1) → ∀ e, InnerPost C S st l (.error e) l' :=
    fun l' h e => ⟨1, counted_pass_step C h, by omega⟩
  cases r1 with
  | none => exact hfail l1 (pass_counted (A' := K) (A'' := K) C (off := off) (lam := fun _ => 0) (r2 := none) (r3 := none) h1 (.inr rfl) (.inr rfl)) _
  | some fc =>
    have f1 : FreshAt st.xOpt l1 := by rw [h1.1 rfl]; exact freshAt_eval _ _
    refine all_bind (derivsP_all st.xOpt l1 f1) ?_
    intro r2 l2 h2
    cases r2 with
    | none => exact hfail l2 (pass_counted (A'' := K) C (off := off) (lam := fun _ => 0) (r3 := none) h1 (.inl h2) (.inr rfl)) _
    | some gJ =>
      have f2 : FreshAt st.xOpt l2 := by
        rw [h2.1 rfl]
        refine freshAt_append f1 ?_
        intro e he
        simp only [derivCalls, List.map_cons, List.map_map, List.mem_cons, List.mem_map, Function.comp] at he
        rcases he with rfl | ⟨i, -, rfl⟩ <;> exact ⟨rfl, rfl⟩
      rw [andThen_some]
      cases evalAt (concreteCtx (C.withVals fc gJ.1 gJ.2 0 [])) S st.mu st.setMu st.rho st.target st.xOpt st.lamsOpt st.lamsPrev with
      | none => exact hfail l2 (pass_counted (A'' := K) C (off := off) (lam := fun _ => 0) (r3 := none) h1 (.inl h2) (.inr rfl)) _
      | some ev =>
        refine all_bind (hessP_all C.approx off st.xOpt ev.lamsPdal l2 f2) ?_
        intro r3 l3 h3
        have hp := pass_counted C h1 (.inl h2) (.inl h3)
        cases r3 with
        | none => exact hfail l3 hp _
        | some HV =>
          have f3 : FreshAt st.xOpt l3 := by
            rw [h3.1 rfl]
            refine freshAt_append f2 ?_
            intro e he
            obtain ⟨q, hq, rfl⟩ := List.mem_map.1 he
            refine ⟨?_, rfl⟩
            revert hq
            cases C.approx with
            | bfgs => simp [hessCalls]
            | identity => simp [hessCalls]
            | _ =>
              simp only [hessCalls, vhpCalls, List.mem_cons, List.mem_map]
              rintro (rfl | ⟨i, -, rfl⟩) <;> rfl
          show Calls.All DerivOk (ite _ _ _) l3 _
          by_cases hc : ev.innerCrit ≤ st.innerTol ∨ ev.outerCrit ≤ S.targetTol
          · rw [if_pos hc]
            exact ⟨0, counted_pass C hp, rfl, by omega, rfl, fun _ => f3⟩
          · rw [if_neg hc]
            refine all_bind (stepP_all C _ l3) ?_
            intro r4 l4 h4
            have hs := counted_step C hp h4
            cases r4 with
            | error e => exact ⟨1, hs, by omega⟩
            | ok o =>
              show Calls.All DerivOk (ite _ _ _) l4 _
              by_cases hm : st.numIters + 1 ≥ S.maxIters
              · rw [if_pos hm]
                exact ⟨1, hs.mono (by omega) (Nat.le_refl _), rfl, by omega, rfl, fun h => absurd h (Nat.not_lt.2 hm)⟩
              · rw [if_neg hm]
                refine all_mono (ih _ ?_ _ l4 ?_ rfl) ?_
                · show S.maxIters - (st.numIters + 1) < S.maxIters - st.numIters
                  omega
                · show st.numIters + 1 < S.maxIters
                  omega
                · intro r l' h
                  cases r with
                  | error e =>
                    obtain ⟨k, g1, g2⟩ := h
                    exact ⟨1 + k, by simpa using hs.trans g1, by
                      have : (st.numIters + 1) + k ≤ S.maxIters := g2
                      omega⟩
                  | ok st' =>
                    obtain ⟨k, g1, g2, g3, g4, g5⟩ := h
                    have g2' : st'.numIters = (st.numIters + 1) + k := g2
                    have g3' : (st.numIters + 1) + k ≤ S.maxIters := g3
                    exact ⟨1 + k, by simpa using hs.trans g1, by omega, by omega, g4, g5⟩

/-- what a run of the outer loop has done -/
def OuterPost (C : StepCfg X K n (∑ i, d i)) (S : Settings K) (st : St X K (Hidden K n (∑ i, d i)) (∑ i, d i))
    (l : List (CallRec X K nc d)) (r : Except String (St X K (Hidden K n (∑ i, d i)) (∑ i, d i))) (l' : List (CallRec X K nc d)) : Prop :=
  ∃ p k, Counted C p k l l' ∧ p ≤ S.maxAlIters - st.alIters ∧ k ≤ S.maxIters - st.numIters ∧ ∀ st', r = .ok st' →
    st'.numIters = st.numIters + k ∧ st.alIters + p ≤ st'.alIters + 1 ∧
    (st'.numIters < S.maxIters → FreshAt st.xOpt l ∨ st.alIters < S.maxAlIters → FreshAt st'.xOpt l')

theorem afterInner_same_calls (S : Settings K) {H : Type} {m : ℕ} (st : St X K H m) :
    (afterInner S st).xOpt = st.xOpt ∧ (afterInner S st).numIters = st.numIters ∧ (afterInner S st).alIters = st.alIters := by
  unfold afterInner
  dsimp only
  split_ifs
  · unfold updateToleranceSuccess tolerancePostUpdate acceptMultipliers
    dsimp only
    cases S.mode <;> simp
  · unfold updateToleranceFailure tolerancePostUpdate updatePenalty setPenalty
    dsimp only
    split_ifs <;> simp

theorem outerP_all (C : StepCfg X K n (∑ i, d i)) (off : Fin nc → Bool) (S : Settings K)
    (st : St X K (Hidden K n (∑ i, d i)) (∑ i, d i)) (l : List (CallRec X K nc d)) :
    (outerP C off S st).All DerivOk l (OuterPost C S st l) := by
  induction hd : S.maxAlIters - st.alIters using Nat.strong_induction_on generalizing st l with
  | _ v ih =>
  subst hd
  rw [outerP]
  by_cases hc : st.numIters < S.maxIters ∧ st.alIters < S.maxAlIters
  · rw [if_pos hc]
    refine all_bind (innerP_all C off S (startOuter (concreteCtx C) st) l hc.1) ?_
    intro r l1 h1
    cases r with
    | error e =>
      obtain ⟨k, g1, g2⟩ := h1
      have g2' : st.numIters + k ≤ S.maxIters := g2
      exact ⟨0, k, g1, by omega, by omega, by rintro st' ⟨⟩⟩
    | ok st1 =>
      obtain ⟨k, g1, g2, g3, g4, g5⟩ := h1
      have g2' : st1.numIters = st.numIters + k := g2
      have g3' : st.numIters + k ≤ S.maxIters := g3
      have g4' : st1.alIters = st.alIters := g4
      obtain ⟨a1, a2, a3⟩ := afterInner_same_calls S st1
      show Calls.All DerivOk (ite _ _ _) l1 _
      by_cases hs : max (afterInner S st1).prim (afterInner S st1).dual < S.targetTol
      · rw [if_pos hs]
        refine ⟨1, k, g1, by omega, by omega, ?_⟩
        rintro st' ⟨⟩
        refine ⟨?_, ?_, ?_⟩
        · show (afterInner S st1).numIters = _
          omega
        · show st.alIters + 1 ≤ (afterInner S st1).alIters + 1
          omega
        · intro hn _
          show FreshAt (afterInner S st1).xOpt l1
          rw [a1]
          exact g5 (by rw [← a2]; exact hn)
      · rw [if_neg hs]
        refine all_mono (ih _ ?_ _ l1 rfl) ?_
        · show S.maxAlIters - (st.alIters + 1) < S.maxAlIters - st.alIters
          omega
        · rintro r l' ⟨p, k', c1, c2, c3, c4⟩
          have c2' : p ≤ S.maxAlIters - (st.alIters + 1) := c2
          have c3' : k' ≤ S.maxIters - (afterInner S st1).numIters := c3
          refine ⟨1 + p, k + k', g1.trans c1, by omega, by omega, ?_⟩
          intro st' hr
          obtain ⟨e1, e2, e3⟩ := c4 st' hr
          have e1' : st'.numIters = (afterInner S st1).numIters + k' := e1
          have e2' : (st.alIters + 1) + p ≤ st'.alIters + 1 := e2
          refine ⟨by omega, by omega, ?_⟩
          intro hn _
          refine e3 hn (.inl ?_)
          show FreshAt (afterInner S st1).xOpt l1
          rw [a1]
          exact g5 (by omega)
  · rw [if_neg hc]
    refine ⟨0, 0, counted_refl C 0 0 l, by omega, by omega, ?_⟩
    rintro st' ⟨⟩
    refine ⟨rfl, by omega, ?_⟩
    intro hn h
    rcases h with h | h
    · exact h
    · exact absurd ⟨hn, h⟩ hc

theorem initSolve_counts (S : Settings K) {H : Type} {m : ℕ} (st : St X K H m) (x0 : X) (k : ℕ) (lams0 : Fin k → K) :
    (initSolve S st x0 k lams0).numIters = 0 ∧ (initSolve S st x0 k lams0).alIters = 0 := ⟨rfl, rfl⟩

theorem solveP_all (C : StepCfg X K n (∑ i, d i)) (off : Fin nc → Bool) (S : Settings K)
    (st : St X K (Hidden K n (∑ i, d i)) (∑ i, d i)) (x0 : X) (k : ℕ) (lams0 : Fin k → K) (l : List (CallRec X K nc d)) :
    (solveP C off S st x0 k lams0).All DerivOk l fun r l' =>
      ∃ p k, Counted C p k l l' ∧ p ≤ S.maxAlIters ∧ k ≤ S.maxIters ∧ ∀ st', r = .ok st' →
        st'.numIters = k ∧ p ≤ st'.alIters + 1 ∧ (st'.numIters < S.maxIters → 0 < S.maxAlIters → FreshAt st'.xOpt l') := by
  unfold solveP
  by_cases hs : st.hasSetup = false
  · rw [if_pos hs]
    exact ⟨0, 0, counted_refl C 0 0 l, by omega, by omega, by rintro st' ⟨⟩⟩
  · rw [if_neg hs]
    refine all_bind (outerP_all C off S (initSolve S st x0 k lams0) l) ?_
    rintro r l' ⟨p, k', c1, c2, c3, c4⟩
    obtain ⟨i1, i2⟩ := initSolve_counts S st x0 k lams0
    rw [i2] at c2
    rw [i1] at c3
    cases r with
    | error e => exact ⟨p, k', c1, c2, c3, by rintro st' ⟨⟩⟩
    | ok st1 =>
      obtain ⟨e1, e2, e3⟩ := c4 st1 rfl
      refine ⟨p, k', c1, c2, c3, ?_⟩
      rintro st' ⟨⟩
      rw [i1] at e1
      rw [i2] at e2 e3
      refine ⟨?_, ?_, ?_⟩
      · show st1.numIters = k'
        omega
      · show p ≤ st1.alIters + 1
        omega
      · intro hn h0
        exact e3 hn (.inr h0)

end

end ProxNLP
