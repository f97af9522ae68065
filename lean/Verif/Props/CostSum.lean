import Verif.Model.CostSum
import Mathlib.Logic.Relation
import Mathlib.Tactic.Abel
import Mathlib.Tactic.Linarith
import Mathlib.Algebra.Module.Rat
import Mathlib.Algebra.Field.Rat
import Mathlib.Algebra.Module.BigOperators

/-! Property theorems for C37: sums of cost functions. -/

set_option linter.unusedSectionVars false
namespace ProxNLP

variable {K V : Type} [Field K] [AddCommGroup V] [Module K V]

/-! ### Specification -/

/-- The object evaluates to `v` (with any sufficient recursion depth). -/
def Spec.Computes (leafVal : ℕ → V) (h : CostHeap K) (id : ℕ) (v : V) : Prop :=
  ∃ N, ∀ fuel ≥ N, costEval leafVal h fuel id = some v

/-- `b` is a component of the sum object `a`. -/
def Spec.IsComponent (h : CostHeap K) (a b : ℕ) : Prop :=
  ∃ comps : List (ℕ × K), h[a]? = some (.sum comps) ∧ ∃ w, (b, w) ∈ comps

/-- `b` is reachable from `a` through components. -/
def Spec.Reaches (h : CostHeap K) : ℕ → ℕ → Prop := Relation.ReflTransGen (Spec.IsComponent h)

/-- The mathematical meaning of an expression. -/
def Spec.denote (val : ℕ → V) : CostExpr K → V
  | .var id => val id
  | .add l r => denote val l + denote val r
  | .addMove l r => denote val l + denote val r
  | .smul a e => a • denote val e
  | .mulSum e a => a • denote val e
  | .neg e => -denote val e

open Spec

/-! ### Helper lemmas -/

theorem foldlM_eval (f : ℕ → Option V) (ws : List (ℕ × K × V)) (acc : V) (hw : ∀ t ∈ ws, f t.1 = some t.2.2) :
    (ws.map fun t => (t.1, t.2.1)).foldlM (fun acc c => (f c.1).map fun v => acc + c.2 • v) acc =
      some (acc + (ws.map fun t => t.2.1 • t.2.2).sum) := by
  induction ws generalizing acc with
  | nil => simp
  | cons t ws ih =>
    rw [List.map_cons, List.foldlM_cons, hw t List.mem_cons_self]
    simp only [Option.map_some, Option.bind_eq_bind, Option.bind_some]
    rw [ih _ fun t ht => hw t (List.mem_cons_of_mem _ ht)]
    simp [add_assoc]

theorem foldlM_some (f : ℕ → Option V) (cs : List (ℕ × K)) (acc r : V)
    (h : cs.foldlM (fun acc c => (f c.1).map fun v => acc + c.2 • v) acc = some r) :
    ∃ ws : List (ℕ × K × V), cs = ws.map (fun t => (t.1, t.2.1)) ∧ (∀ t ∈ ws, f t.1 = some t.2.2) ∧
      r = acc + (ws.map fun t => t.2.1 • t.2.2).sum := by
  induction cs generalizing acc with
  | nil => simp only [List.foldlM_nil] at h; cases h; exact ⟨[], rfl, by simp, by simp⟩
  | cons c cs ih =>
    rw [List.foldlM_cons] at h
    cases hc : f c.1 with
    | none => rw [hc] at h; simp at h
    | some v =>
      rw [hc] at h
      simp only [Option.map_some, Option.bind_eq_bind, Option.bind_some] at h
      obtain ⟨ws, h1, h2, h3⟩ := ih _ h
      refine ⟨(c.1, c.2, v) :: ws, by rw [h1]; simp, ?_, by rw [h3]; simp [add_assoc]⟩
      intro t ht
      rcases List.mem_cons.1 ht with rfl | ht
      · exact hc
      · exact h2 t ht

theorem costEval_mono (leafVal : ℕ → V) (h : CostHeap K) (fuel : ℕ) (id : ℕ) (v : V)
    (he : costEval leafVal h fuel id = some v) : costEval leafVal h (fuel + 1) id = some v := by
  induction fuel generalizing id v with
  | zero => simp [costEval] at he
  | succ fuel ih =>
    rw [costEval] at he ⊢
    cases hid : h[id]? with
    | none => rw [hid] at he; simp at he
    | some o =>
      cases o with
      | leaf k => rw [hid] at he; exact he
      | sum comps =>
        rw [hid] at he
        obtain ⟨ws, rfl, h2, rfl⟩ := foldlM_some _ _ _ _ he
        exact foldlM_eval _ ws 0 fun t ht => ih _ _ (h2 t ht)

theorem computes_of_eval (leafVal : ℕ → V) (h : CostHeap K) (fuel id : ℕ) (v : V)
    (he : costEval leafVal h fuel id = some v) : Computes leafVal h id v := by
  refine ⟨fuel, fun f hf => ?_⟩
  induction f, hf using Nat.le_induction with
  | base => exact he
  | succ k _ ih => exact costEval_mono _ _ _ _ _ ih

theorem computes_unique (leafVal : ℕ → V) (h : CostHeap K) (id : ℕ) (v w : V) (h1 : Computes leafVal h id v)
    (h2 : Computes leafVal h id w) : v = w := by
  obtain ⟨N, hN⟩ := h1
  obtain ⟨M, hM⟩ := h2
  have := (hN (max N M) (le_max_left _ _)).symm.trans (hM (max N M) (le_max_right _ _))
  injection this

theorem exists_bound (leafVal : ℕ → V) (h : CostHeap K) (ws : List (ℕ × K × V))
    (hw : ∀ t ∈ ws, Computes leafVal h t.1 t.2.2) :
    ∃ N, ∀ fuel ≥ N, ∀ t ∈ ws, costEval leafVal h fuel t.1 = some t.2.2 := by
  induction ws with
  | nil => exact ⟨0, by simp⟩
  | cons t ws ih =>
    obtain ⟨N, hN⟩ := ih fun t ht => hw t (List.mem_cons_of_mem _ ht)
    obtain ⟨M, hM⟩ := hw t List.mem_cons_self
    refine ⟨max N M, fun fuel hf u hu => ?_⟩
    rcases List.mem_cons.1 hu with rfl | hu
    · exact hM fuel (le_trans (le_max_right _ _) hf)
    · exact hN fuel (le_trans (le_max_left _ _) hf) u hu

theorem computes_sum (leafVal : ℕ → V) (h : CostHeap K) (id : ℕ) (ws : List (ℕ × K × V))
    (hid : h[id]? = some (.sum (ws.map fun t => (t.1, t.2.1)))) (hw : ∀ t ∈ ws, Computes leafVal h t.1 t.2.2) :
    Computes leafVal h id (ws.map fun t => t.2.1 • t.2.2).sum := by
  obtain ⟨N, hN⟩ := exists_bound leafVal h ws hw
  refine ⟨N + 1, fun fuel hf => ?_⟩
  obtain ⟨k, rfl⟩ : ∃ k, fuel = k + 1 := ⟨fuel - 1, by omega⟩
  rw [costEval, hid]
  simp only
  rw [foldlM_eval _ ws 0 (hN k (by omega)), zero_add]

theorem computes_sum_inv (leafVal : ℕ → V) (h : CostHeap K) (id : ℕ) (v : V) (comps : List (ℕ × K))
    (hid : h[id]? = some (.sum comps)) (hv : Computes leafVal h id v) :
    ∃ ws : List (ℕ × K × V), comps = ws.map (fun t => (t.1, t.2.1)) ∧ (∀ t ∈ ws, Computes leafVal h t.1 t.2.2) ∧
      v = (ws.map fun t => t.2.1 • t.2.2).sum := by
  obtain ⟨N, hN⟩ := hv
  have he := hN (N + 1) (by omega)
  rw [costEval, hid] at he
  obtain ⟨ws, h1, h2, h3⟩ := foldlM_some _ _ _ _ he
  exact ⟨ws, h1, fun t ht => computes_of_eval _ _ _ _ _ (h2 t ht), by rw [h3, zero_add]⟩

/-- a set of objects that contains all components of its members -/
def ClosedIn (h : CostHeap K) (S : Set ℕ) : Prop := ∀ a ∈ S, ∀ b, IsComponent h a b → b ∈ S

theorem costEval_frame (leafVal : ℕ → V) (h h' : CostHeap K) (S : Set ℕ) (hS : ClosedIn h S)
    (hag : ∀ a ∈ S, h'[a]? = h[a]?) (fuel id : ℕ) (hid : id ∈ S) :
    costEval leafVal h' fuel id = costEval leafVal h fuel id := by
  induction fuel generalizing id with
  | zero => rfl
  | succ fuel ih =>
    rw [costEval, costEval, hag id hid]
    cases ho : h[id]? with
    | none => rfl
    | some o =>
      cases o with
      | leaf k => rfl
      | sum comps =>
        simp only
        have hc : ∀ c ∈ comps, costEval leafVal h' fuel c.1 = costEval leafVal h fuel c.1 := by
          intro c hc
          exact ih c.1 (hS id hid c.1 ⟨comps, ho, c.2, hc⟩)
        clear ho
        generalize (0 : V) = acc
        induction comps generalizing acc with
        | nil => rfl
        | cons c cs ihc =>
          rw [List.foldlM_cons, List.foldlM_cons, hc c List.mem_cons_self]
          cases costEval leafVal h fuel c.1 with
          | none => rfl
          | some v =>
            simp only [Option.map_some, Option.bind_eq_bind, Option.bind_some]
            exact ihc (fun c hc' => hc c (List.mem_cons_of_mem _ hc')) _

theorem computes_frame (leafVal : ℕ → V) (h h' : CostHeap K) (S : Set ℕ) (hS : ClosedIn h S)
    (hag : ∀ a ∈ S, h'[a]? = h[a]?) (id : ℕ) (hid : id ∈ S) (v : V) :
    Computes leafVal h' id v ↔ Computes leafVal h id v := by
  unfold Computes
  simp only [costEval_frame leafVal h h' S hS hag _ id hid]

theorem closedIn_frame (h h' : CostHeap K) (S : Set ℕ) (hS : ClosedIn h S) (hag : ∀ a ∈ S, h'[a]? = h[a]?) :
    ClosedIn h' S := by
  rintro a ha b ⟨cs, hcs, w, hw⟩
  rw [hag a ha] at hcs
  exact hS a ha b ⟨cs, hcs, w, hw⟩

theorem closedIn_reach (h : CostHeap K) (a : ℕ) : ClosedIn h {b | Reaches h a b} :=
  fun _ hb _ hc => Relation.ReflTransGen.tail hb hc

/-- an object that evaluates is not reachable from its own components -/
theorem computes_acyclic (leafVal : ℕ → V) (h : CostHeap K) (id : ℕ) (v : V) (hv : Computes leafVal h id v) (b : ℕ)
    (hb : IsComponent h id b) : ¬ Reaches h b id := by
  intro hr
  have down : ∀ a b, IsComponent h a b → ∀ k w, costEval leafVal h (k + 1) a = some w →
      ∃ u, costEval leafVal h k b = some u := by
    rintro a b ⟨cs, hcs, x, hx⟩ k w hw
    rw [costEval, hcs] at hw
    obtain ⟨ws, rfl, h2, -⟩ := foldlM_some _ _ _ _ hw
    obtain ⟨t, ht, hte⟩ := List.mem_map.1 hx
    cases hte
    exact ⟨_, h2 t ht⟩
  have reach : ∀ a b, Reaches h a b → ∀ k w, costEval leafVal h k a = some w →
      ∃ k' ≤ k, ∃ u, costEval leafVal h k' b = some u := by
    intro a b hab
    induction hab with
    | refl => intro k w hw; exact ⟨k, le_rfl, w, hw⟩
    | tail _ hbc ih =>
      intro k w hw
      obtain ⟨k', hk', u, hu⟩ := ih k w hw
      cases k' with
      | zero => simp [costEval] at hu
      | succ k' =>
        obtain ⟨u', hu'⟩ := down _ _ hbc k' u hu
        exact ⟨k', by omega, u', hu'⟩
  have never : ∀ k, costEval leafVal h k id = none := by
    intro k
    induction k using Nat.strong_induction_on with
    | _ k ih =>
      cases hk : costEval leafVal h k id with
      | none => rfl
      | some w =>
        cases k with
        | zero => simp [costEval] at hk
        | succ k =>
          obtain ⟨u, hu⟩ := down _ _ hb k w hk
          obtain ⟨k', hk', u', hu'⟩ := reach _ _ hr k u hu
          rw [ih k' (by omega)] at hu'
          cases hu'
  obtain ⟨N, hN⟩ := hv
  have := hN N le_rfl
  rw [never N] at this
  cases this

/-! ### C37 -/

/-- **C37, evaluation**: a sum object evaluates (value, gradient or Hessian) to the weighted sum of what its components
evaluate to, in particular to zero without components. -/
theorem C37_weighted_sum (leafVal : ℕ → V) (h : CostHeap K) (id : ℕ) (comps : List (ℕ × K)) (val : ℕ → V)
    (hid : h[id]? = some (.sum comps)) (hc : ∀ c ∈ comps, Computes leafVal h c.1 (val c.1)) :
    Computes leafVal h id (comps.map fun c => c.2 • val c.1).sum := by
  have := computes_sum leafVal h id (comps.map fun c => (c.1, c.2, val c.1)) (by
    rw [hid, List.map_map]; congr 2; exact (List.map_id comps).symm) (by
    intro t ht
    obtain ⟨c, hcm, rfl⟩ := List.mem_map.1 ht
    exact hc c hcm)
  rw [List.map_map] at this
  exact this

/-- What is known of the object made by an expression. -/
structure BuildInv (leafVal : ℕ → V) (val : ℕ → V) (n0 : ℕ) (h h' : CostHeap K) (i : ℕ) (v : V) : Prop where
  len : h.length ≤ h'.length
  old : ∀ j < h.length, h'[j]? = h[j]?
  res : (i < n0 ∧ v = val i) ∨ (h.length ≤ i ∧ ∃ (ws : List (ℕ × K × V)) (S : Set ℕ),
    h'[i]? = some (.sum (ws.map fun t => (t.1, t.2.1))) ∧ (∀ t ∈ ws, Computes leafVal h' t.1 t.2.2) ∧
    v = (ws.map fun t => t.2.1 • t.2.2).sum ∧ ClosedIn h' S ∧ i ∉ S ∧ (∀ t ∈ ws, t.1 ∈ S) ∧
    ∀ j ∈ S, j < n0 ∨ (h.length ≤ j ∧ j < h'.length))

theorem getElem?_append_old {α : Type} (h : List α) (o : α) (j : ℕ) (hj : j < h.length) : (h ++ [o])[j]? = h[j]? := by
  rw [List.getElem?_append_left hj]

/-- scaling a built sum -/
theorem mulSum_inv (leafVal val : ℕ → V) (n0 : ℕ) (h h1 h' : CostHeap K) (i k : ℕ) (v : V) (a : K) (hn : n0 ≤ h.length)
    (hcl : ClosedIn h {j | j < n0}) (hval : ∀ j < n0, Computes leafVal h j (val j))
    (inv : BuildInv leafVal val n0 h h1 i v) (hb : mulSum h1 i a = some (h', k)) :
    BuildInv leafVal val n0 h h' k (a • v) := by
  unfold mulSum at hb
  simp only [Option.map_eq_some_iff, Prod.mk.injEq] at hb
  obtain ⟨cs, hcs, rfl, rfl⟩ := hb
  have hi : h1[i]? = some (.sum cs) := by
    unfold sumComps at hcs
    split at hcs
    · rename_i cs' he; cases hcs; exact he
    · cases hcs
  refine ⟨by simp; exact inv.len.trans (by omega), ?_, Or.inr ⟨inv.len, ?_⟩⟩
  · intro j hj
    rw [getElem?_append_old _ _ _ (lt_of_lt_of_le hj inv.len), inv.old j hj]
  rcases inv.res with ⟨hi0, rfl⟩ | ⟨hi0, ws, S, e1, e2, e3, e4, e5, e6, e7⟩
  · -- an existing sum object
    have hold : ∀ j ∈ {j | j < n0}, (h1 ++ [CostObj.sum (cs.map fun c => (c.1, a * c.2))])[j]? = h[j]? := by
      intro j hj
      have : j < h.length := lt_of_lt_of_le hj hn
      rw [getElem?_append_old _ _ _ (lt_of_lt_of_le this inv.len), inv.old j this]
    have hih : h[i]? = some (.sum cs) := by rw [← inv.old i (lt_of_lt_of_le hi0 hn)]; exact hi
    obtain ⟨ws, rfl, h2, h3⟩ := computes_sum_inv leafVal h i (val i) cs hih (hval i hi0)
    have hmem : ∀ t ∈ ws, t.1 < n0 := fun t ht =>
      hcl i hi0 t.1 ⟨_, hih, t.2.1, List.mem_map.2 ⟨t, ht, rfl⟩⟩
    refine ⟨ws.map fun t => (t.1, a * t.2.1, t.2.2), {j | j < n0}, ?_, ?_, ?_, closedIn_frame h _ _ hcl hold, ?_, ?_, ?_⟩
    · simp [List.map_map, Function.comp_def]
    · intro t ht
      obtain ⟨u, hu, rfl⟩ := List.mem_map.1 ht
      exact (computes_frame leafVal h _ _ hcl hold _ (hmem u hu) _).2 (h2 u hu)
    · rw [h3, List.smul_sum, List.map_map, List.map_map]
      congr 1
      apply List.map_congr_left
      intro t _
      simp [mul_smul]
    · have := inv.len
      simp only [Set.mem_setOf_eq, not_lt]; omega
    · intro t ht
      obtain ⟨u, hu, rfl⟩ := List.mem_map.1 ht
      exact hmem u hu
    · intro j hj; exact Or.inl hj
  · rw [e1] at hi
    simp only [Option.some.injEq, CostObj.sum.injEq] at hi
    subst hi
    have hSlt : ∀ j ∈ S, j < h1.length := by
      intro j hj
      rcases e7 j hj with h | h
      · have := inv.len; omega
      · exact h.2
    have hold : ∀ j ∈ S, (h1 ++ [CostObj.sum ((ws.map fun t => (t.1, t.2.1)).map fun c => (c.1, a * c.2))])[j]? = h1[j]? :=
      fun j hj => getElem?_append_old _ _ _ (hSlt j hj)
    refine ⟨ws.map fun t => (t.1, a * t.2.1, t.2.2), S, ?_, ?_, ?_, closedIn_frame h1 _ _ e4 hold, ?_, ?_, ?_⟩
    · simp [List.map_map, Function.comp_def]
    · intro t ht
      obtain ⟨u, hu, rfl⟩ := List.mem_map.1 ht
      exact (computes_frame leafVal h1 _ _ e4 hold _ (e6 u hu) _).2 (e2 u hu)
    · rw [e3, List.smul_sum, List.map_map, List.map_map]
      congr 1
      apply List.map_congr_left
      intro t _
      simp [mul_smul]
    · intro hmem; exact absurd (hSlt _ hmem) (lt_irrefl _)
    · intro t ht
      obtain ⟨u, hu, rfl⟩ := List.mem_map.1 ht
      exact e6 u hu
    · intro j hj
      rcases e7 j hj with h | h
      · exact Or.inl h
      · right; simp; omega

/-- what an expression's result evaluates to, and a closed set containing it that avoids fresh objects of others -/
theorem BuildInv.value {leafVal val : ℕ → V} {n0 : ℕ} {h h' : CostHeap K} {i : ℕ} {v : V}
    (inv : BuildInv leafVal val n0 h h' i v) (hn : n0 ≤ h.length) (hcl : ClosedIn h {j | j < n0})
    (hval : ∀ j < n0, Computes leafVal h j (val j)) :
    Computes leafVal h' i v ∧ ∃ S : Set ℕ, ClosedIn h' S ∧ i ∈ S ∧ ∀ j ∈ S, j < n0 ∨ (h.length ≤ j ∧ j < h'.length) := by
  have hold : ∀ j ∈ {j | j < n0}, h'[j]? = h[j]? := fun j hj => inv.old j (lt_of_lt_of_le hj hn)
  rcases inv.res with ⟨hi, rfl⟩ | ⟨hi, ws, S, e1, e2, e3, e4, e5, e6, e7⟩
  · exact ⟨(computes_frame leafVal h h' _ hcl hold i hi _).2 (hval i hi), {j | j < n0}, closedIn_frame h h' _ hcl hold, hi,
      fun j hj => Or.inl hj⟩
  · refine ⟨by rw [e3]; exact computes_sum leafVal h' i ws e1 e2, insert i S, ?_, Set.mem_insert _ _, ?_⟩
    · intro a ha b hb
      rcases ha with rfl | ha
      · obtain ⟨cs, hcs, w, hw⟩ := hb
        rw [e1] at hcs
        simp only [Option.some.injEq, CostObj.sum.injEq] at hcs
        subst hcs
        obtain ⟨t, ht, hte⟩ := List.mem_map.1 hw
        cases hte
        exact Set.mem_insert_of_mem _ (e6 t ht)
      · exact Set.mem_insert_of_mem _ (e4 a ha b hb)
    · intro j hj
      rcases hj with rfl | hj
      · right
        refine ⟨hi, ?_⟩
        by_contra hcon
        rw [List.getElem?_eq_none (by omega)] at e1
        cases e1
      · exact e7 j hj

theorem build_inv (leafVal val : ℕ → V) (n0 : ℕ) (e : CostExpr K) (h h' : CostHeap K) (i : ℕ) (hn : n0 ≤ h.length)
    (hcl : ClosedIn h {j | j < n0}) (hval : ∀ j < n0, Computes leafVal h j (val j))
    (hb : e.build n0 h = some (h', i)) : BuildInv leafVal val n0 h h' i (denote val e) := by
  induction e generalizing h h' i with
  | var id =>
    rw [CostExpr.build] at hb
    split_ifs at hb with hid
    cases hb
    exact ⟨le_rfl, fun _ _ => rfl, Or.inl ⟨hid, rfl⟩⟩
  | add l r ihl ihr =>
    rw [CostExpr.build] at hb
    split at hb
    · cases hb
    rename_i h1 a hl
    split at hb
    · cases hb
    rename_i h2 b hr
    cases hb
    have invl := ihl h h1 a hn hcl hval hl
    have hold1 : ∀ j ∈ {j | j < n0}, h1[j]? = h[j]? := fun j hj => invl.old j (lt_of_lt_of_le hj hn)
    have hn1 := hn.trans invl.len
    have hcl1 := closedIn_frame h h1 _ hcl hold1
    have hval1 : ∀ j < n0, Computes leafVal h1 j (val j) := fun j hj =>
      (computes_frame leafVal h h1 _ hcl hold1 j hj _).2 (hval j hj)
    have invr := ihr h1 h2 b hn1 hcl1 hval1 hr
    obtain ⟨vl, Sl, cl, ml, bl⟩ := invl.value hn hcl hval
    obtain ⟨vr, Sr, cr, mr, br⟩ := invr.value hn1 hcl1 hval1
    have l1 := invl.len
    have l2 := invr.len
    have hl12 : ∀ j ∈ Sl, h2[j]? = h1[j]? := fun j hj => invr.old j (by rcases bl j hj with h | h <;> omega)
    have app : ∀ j < h2.length, (h2 ++ [CostObj.sum [(a, (1 : K)), (b, 1)]])[j]? = h2[j]? :=
      fun j hj => getElem?_append_old _ _ _ hj
    have hSl : ∀ j ∈ Sl, (h2 ++ [CostObj.sum [(a, (1 : K)), (b, 1)]])[j]? = h1[j]? := fun j hj => by
      rw [app j (by rcases bl j hj with h | h <;> omega), hl12 j hj]
    have hSr : ∀ j ∈ Sr, (h2 ++ [CostObj.sum [(a, (1 : K)), (b, 1)]])[j]? = h2[j]? := fun j hj =>
      app j (by rcases br j hj with h | h <;> omega)
    refine ⟨by simp; omega, ?_, Or.inr ⟨by omega, [(a, 1, denote val l), (b, 1, denote val r)], Sl ∪ Sr, ?_, ?_, ?_, ?_, ?_, ?_, ?_⟩⟩
    · intro j hj
      rw [app j (by omega), invr.old j (by omega), invl.old j hj]
    · simp
    · intro t ht
      simp only [List.mem_cons, List.not_mem_nil, or_false] at ht
      rcases ht with rfl | rfl
      · exact (computes_frame leafVal h1 _ Sl cl hSl a ml _).2 vl
      · exact (computes_frame leafVal h2 _ Sr cr hSr b mr _).2 vr
    · simp [denote]
    · intro x hx y hy
      rcases hx with hx | hx
      · exact Or.inl (closedIn_frame h1 _ Sl cl hSl x hx y hy)
      · exact Or.inr (closedIn_frame h2 _ Sr cr hSr x hx y hy)
    · rintro (hx | hx)
      · rcases bl _ hx with h | h <;> omega
      · rcases br _ hx with h | h <;> omega
    · intro t ht
      simp only [List.mem_cons, List.not_mem_nil, or_false] at ht
      rcases ht with rfl | rfl
      · exact Or.inl ml
      · exact Or.inr mr
    · rintro j (hj | hj)
      · rcases bl _ hj with h | h
        · exact Or.inl h
        · right; simp; omega
      · rcases br _ hj with h | h
        · exact Or.inl h
        · right; simp; omega
  | addMove l r ihl ihr =>
    rw [CostExpr.build] at hb
    split at hb
    · cases hb
    rename_i h1 a hl
    split_ifs at hb with ha0
    split at hb
    · cases hb
    rename_i h2 b hr
    have invl := ihl h h1 a hn hcl hval hl
    have hold1 : ∀ j ∈ {j | j < n0}, h1[j]? = h[j]? := fun j hj => invl.old j (lt_of_lt_of_le hj hn)
    have hn1 := hn.trans invl.len
    have hcl1 := closedIn_frame h h1 _ hcl hold1
    have hval1 : ∀ j < n0, Computes leafVal h1 j (val j) := fun j hj =>
      (computes_frame leafVal h h1 _ hcl hold1 j hj _).2 (hval j hj)
    have invr := ihr h1 h2 b hn1 hcl1 hval1 hr
    obtain ⟨vr, Sr, cr, mr, br⟩ := invr.value hn1 hcl1 hval1
    have l1 := invl.len
    have l2 := invr.len
    rcases invl.res with ⟨hi, -⟩ | ⟨hi, ws, S, e1, e2, e3, e4, e5, e6, e7⟩
    · exact absurd hi ha0
    have halt : a < h1.length := by
      by_contra hcon
      rw [List.getElem?_eq_none (by omega)] at e1
      cases e1
    have e1' : h2[a]? = some (.sum (ws.map fun t => (t.1, t.2.1))) := by rw [invr.old a halt, e1]
    unfold plusMove iaddCost addComponent sumComps at hb
    rw [e1'] at hb
    simp only [Option.map_some, Option.some.injEq, Prod.mk.injEq] at hb
    obtain ⟨rfl, rfl⟩ := hb
    have haSr : a ∉ Sr := by
      intro hx
      rcases br a hx with h | h <;> omega
    have hS : ∀ j ∈ S, (h2.set a (.sum (ws.map (fun t => (t.1, t.2.1)) ++ [(b, 1)])))[j]? = h1[j]? := by
      intro j hj
      have hne : a ≠ j := by rintro rfl; exact e5 hj
      rw [List.getElem?_set_ne hne]
      exact invr.old j (by rcases e7 j hj with h | h <;> omega)
    have hSr : ∀ j ∈ Sr, (h2.set a (.sum (ws.map (fun t => (t.1, t.2.1)) ++ [(b, 1)])))[j]? = h2[j]? := by
      intro j hj
      have hne : a ≠ j := by rintro rfl; exact haSr hj
      rw [List.getElem?_set_ne hne]
    refine ⟨by simp; omega, ?_, Or.inr ⟨hi, ws ++ [(b, 1, denote val r)], S ∪ Sr, ?_, ?_, ?_, ?_, ?_, ?_, ?_⟩⟩
    · intro j hj
      rw [List.getElem?_set_ne (by omega), invr.old j (by omega), invl.old j hj]
    · rw [List.getElem?_set_self (by omega)]
      simp
    · intro t ht
      rcases List.mem_append.1 ht with ht | ht
      · exact (computes_frame leafVal h1 _ S e4 hS _ (e6 t ht) _).2 (e2 t ht)
      · simp only [List.mem_singleton] at ht
        subst ht
        exact (computes_frame leafVal h2 _ Sr cr hSr b mr _).2 vr
    · simp [denote, e3]
    · intro x hx y hy
      rcases hx with hx | hx
      · exact Or.inl (closedIn_frame h1 _ S e4 hS x hx y hy)
      · exact Or.inr (closedIn_frame h2 _ Sr cr hSr x hx y hy)
    · rintro (hx | hx)
      · exact e5 hx
      · exact haSr hx
    · intro t ht
      rcases List.mem_append.1 ht with ht | ht
      · exact Or.inl (e6 t ht)
      · simp only [List.mem_singleton] at ht
        subst ht
        exact Or.inr mr
    · rintro j (hj | hj)
      · rcases e7 _ hj with h | h
        · exact Or.inl h
        · right; simp; omega
      · rcases br _ hj with h | h
        · exact Or.inl h
        · right; simp; omega
  | smul c e ih =>
    rw [CostExpr.build] at hb
    split at hb
    · cases hb
    rename_i h1 a hl
    cases hb
    have inv := ih h h1 a hn hcl hval hl
    obtain ⟨ve, S, cS, mS, bS⟩ := inv.value hn hcl hval
    have l1 := inv.len
    have hS : ∀ j ∈ S, (h1 ++ [CostObj.sum [(a, c)]])[j]? = h1[j]? := fun j hj =>
      getElem?_append_old _ _ _ (by rcases bS j hj with h | h <;> omega)
    refine ⟨by simp; omega, ?_, Or.inr ⟨by omega, [(a, c, denote val e)], S, ?_, ?_, ?_, ?_, ?_, ?_, ?_⟩⟩
    · intro j hj
      rw [getElem?_append_old _ _ _ (by omega), inv.old j hj]
    · simp
    · intro t ht
      simp only [List.mem_singleton] at ht
      subst ht
      exact (computes_frame leafVal h1 _ S cS hS a mS _).2 ve
    · simp [denote]
    · exact closedIn_frame h1 _ S cS hS
    · intro hx; rcases bS _ hx with h | h <;> omega
    · intro t ht
      simp only [List.mem_singleton] at ht
      subst ht
      exact mS
    · intro j hj
      rcases bS _ hj with h | h
      · exact Or.inl h
      · right; simp; omega
  | mulSum e c ih =>
    rw [CostExpr.build] at hb
    split at hb
    · cases hb
    rename_i h1 a hl
    exact mulSum_inv leafVal val n0 h h1 h' a i _ c hn hcl hval (ih h h1 a hn hcl hval hl) hb
  | neg e ih =>
    rw [CostExpr.build] at hb
    split at hb
    · cases hb
    rename_i h1 a hl
    have := mulSum_inv leafVal val n0 h h1 h' a i _ (-1) hn hcl hval (ih h h1 a hn hcl hval hl) hb
    rw [neg_one_smul] at this
    exact this

theorem closedIn_all (leafVal : ℕ → V) (h : CostHeap K) (val : ℕ → V) (hval : ∀ j < h.length, Computes leafVal h j (val j)) :
    ClosedIn h {j | j < h.length} := by
  rintro a ha b ⟨cs, hcs, w, hw⟩
  obtain ⟨ws, rfl, h2, -⟩ := computes_sum_inv leafVal h a (val a) cs hcs (hval a ha)
  obtain ⟨t, ht, hte⟩ := List.mem_map.1 hw
  cases hte
  obtain ⟨N, hN⟩ := h2 t ht
  by_contra hcon
  have := hN (N + 1) (by omega)
  rw [costEval, List.getElem?_eq_none (by simpa using hcon)] at this
  cases this

/-- **C37, expressions**: for every expression over existing cost objects (each evaluating to `val`), built with `+`
(creating a sum, or extending a temporary one), `a * cost`, `sum * a`, unary minus in any nesting, the resulting object
evaluates to the same combination of the values; all objects that existed before are unchanged and keep their
values. -/
theorem C37_expression (leafVal : ℕ → V) (h h' : CostHeap K) (e : CostExpr K) (i : ℕ) (val : ℕ → V)
    (hval : ∀ j < h.length, Computes leafVal h j (val j)) (hb : e.build h.length h = some (h', i)) :
    Computes leafVal h' i (denote val e) ∧
    ∀ j < h.length, h'[j]? = h[j]? ∧ Computes leafVal h' j (val j) := by
  have hcl := closedIn_all leafVal h val hval
  have inv := build_inv leafVal val h.length e h h' i le_rfl hcl hval hb
  refine ⟨(inv.value le_rfl hcl hval).1, fun j hj => ⟨inv.old j hj, ?_⟩⟩
  exact (computes_frame leafVal h h' _ hcl (fun j hj => inv.old j hj) j hj _).2 (hval j hj)

theorem reaches_old {h : CostHeap K} {id a b : ℕ} (o : CostObj K) (hr : Reaches h a b) (hna : ¬ Reaches h a id) :
    (h.set id o)[b]? = h[b]? := by
  refine List.getElem?_set_ne ?_
  rintro rfl
  exact hna hr

/-- **C37, `sum += cost`**: the sum's value grows by the value of the added cost; every object that does not contain the
sum keeps its value. The added cost must not contain the sum. -/
theorem C37_iadd (leafVal : ℕ → V) (h : CostHeap K) (id other : ℕ) (cs : List (ℕ × K)) (v u : V)
    (hid : h[id]? = some (.sum cs)) (hv : Computes leafVal h id v) (hu : Computes leafVal h other u)
    (hno : ¬ Reaches h other id) :
    ∃ h', iaddCost h id other = some h' ∧ Computes leafVal h' id (v + u) ∧
      ∀ j, ¬ Reaches h j id → ∀ w, Computes leafVal h' j w ↔ Computes leafVal h j w := by
  refine ⟨h.set id (.sum (cs ++ [(other, 1)])), by simp [iaddCost, addComponent, sumComps, hid], ?_, ?_⟩
  · obtain ⟨ws, rfl, h2, rfl⟩ := computes_sum_inv leafVal h id v cs hid hv
    have hlt : id < h.length := by
      by_contra hcon; rw [List.getElem?_eq_none (by omega)] at hid; cases hid
    have := computes_sum leafVal (h.set id (.sum (ws.map (fun t => (t.1, t.2.1)) ++ [(other, 1)]))) id
      (ws ++ [(other, 1, u)]) (by rw [List.getElem?_set_self hlt]; simp) (by
      intro t ht
      rcases List.mem_append.1 ht with ht | ht
      · have hna : ¬ Reaches h t.1 id := computes_acyclic leafVal h id _ hv t.1
          ⟨_, hid, t.2.1, List.mem_map.2 ⟨t, ht, rfl⟩⟩
        exact (computes_frame leafVal h _ _ (closedIn_reach h t.1) (fun b hb => reaches_old _ hb hna) t.1
          Relation.ReflTransGen.refl _).2 (h2 t ht)
      · simp only [List.mem_singleton] at ht
        subst ht
        exact (computes_frame leafVal h _ _ (closedIn_reach h other) (fun b hb => reaches_old _ hb hno) other
          Relation.ReflTransGen.refl _).2 hu)
    simpa using this
  · intro j hj w
    exact computes_frame leafVal h _ _ (closedIn_reach h j) (fun b hb => reaches_old _ hb hj) j
      Relation.ReflTransGen.refl _

/-- **C37, `addComponent(cost, w)`** likewise. -/
theorem C37_addComponent (leafVal : ℕ → V) (h : CostHeap K) (id other : ℕ) (a : K) (cs : List (ℕ × K)) (v u : V)
    (hid : h[id]? = some (.sum cs)) (hv : Computes leafVal h id v) (hu : Computes leafVal h other u)
    (hno : ¬ Reaches h other id) :
    ∃ h', addComponent h id other a = some h' ∧ Computes leafVal h' id (v + a • u) ∧
      ∀ j, ¬ Reaches h j id → ∀ w, Computes leafVal h' j w ↔ Computes leafVal h j w := by
  refine ⟨h.set id (.sum (cs ++ [(other, a)])), by simp [addComponent, sumComps, hid], ?_, ?_⟩
  · obtain ⟨ws, rfl, h2, rfl⟩ := computes_sum_inv leafVal h id v cs hid hv
    have hlt : id < h.length := by
      by_contra hcon; rw [List.getElem?_eq_none (by omega)] at hid; cases hid
    have := computes_sum leafVal (h.set id (.sum (ws.map (fun t => (t.1, t.2.1)) ++ [(other, a)]))) id
      (ws ++ [(other, a, u)]) (by rw [List.getElem?_set_self hlt]; simp) (by
      intro t ht
      rcases List.mem_append.1 ht with ht | ht
      · have hna : ¬ Reaches h t.1 id := computes_acyclic leafVal h id _ hv t.1
          ⟨_, hid, t.2.1, List.mem_map.2 ⟨t, ht, rfl⟩⟩
        exact (computes_frame leafVal h _ _ (closedIn_reach h t.1) (fun b hb => reaches_old _ hb hna) t.1
          Relation.ReflTransGen.refl _).2 (h2 t ht)
      · simp only [List.mem_singleton] at ht
        subst ht
        exact (computes_frame leafVal h _ _ (closedIn_reach h other) (fun b hb => reaches_old _ hb hno) other
          Relation.ReflTransGen.refl _).2 hu)
    simpa using this
  · intro j hj w
    exact computes_frame leafVal h _ _ (closedIn_reach h j) (fun b hb => reaches_old _ hb hj) j
      Relation.ReflTransGen.refl _

/-- **C37, `sum += sum`** (two different sums): the components of the other sum are taken over. -/
theorem C37_iaddSum (leafVal : ℕ → V) (h : CostHeap K) (id other : ℕ) (cs os : List (ℕ × K)) (v u : V)
    (hid : h[id]? = some (.sum cs)) (ho : h[other]? = some (.sum os)) (hv : Computes leafVal h id v)
    (hu : Computes leafVal h other u) (hne : id ≠ other) (hno : ∀ c ∈ os, ¬ Reaches h c.1 id) :
    ∃ h', iaddSum h id other = some h' ∧ Computes leafVal h' id (v + u) ∧
      ∀ j, ¬ Reaches h j id → ∀ w, Computes leafVal h' j w ↔ Computes leafVal h j w := by
  refine ⟨h.set id (.sum (cs ++ os)), by simp [iaddSum, sumComps, hid, ho, hne], ?_, ?_⟩
  · obtain ⟨ws, rfl, h2, rfl⟩ := computes_sum_inv leafVal h id v cs hid hv
    obtain ⟨us, rfl, h3, rfl⟩ := computes_sum_inv leafVal h other u os ho hu
    have hlt : id < h.length := by
      by_contra hcon; rw [List.getElem?_eq_none (by omega)] at hid; cases hid
    have := computes_sum leafVal
      (h.set id (.sum (ws.map (fun t => (t.1, t.2.1)) ++ us.map (fun t => (t.1, t.2.1))))) id
      (ws ++ us) (by rw [List.getElem?_set_self hlt]; simp) (by
      intro t ht
      have hna : ¬ Reaches h t.1 id := by
        rcases List.mem_append.1 ht with ht | ht
        · exact computes_acyclic leafVal h id _ hv t.1 ⟨_, hid, t.2.1, List.mem_map.2 ⟨t, ht, rfl⟩⟩
        · exact hno (t.1, t.2.1) (List.mem_map.2 ⟨t, ht, rfl⟩)
      have hc : Computes leafVal h t.1 t.2.2 := by
        rcases List.mem_append.1 ht with ht | ht
        · exact h2 t ht
        · exact h3 t ht
      exact (computes_frame leafVal h _ _ (closedIn_reach h t.1) (fun b hb => reaches_old _ hb hna) t.1
        Relation.ReflTransGen.refl _).2 hc)
    simpa using this
  · intro j hj w
    exact computes_frame leafVal h _ _ (closedIn_reach h j) (fun b hb => reaches_old _ hb hj) j
      Relation.ReflTransGen.refl _

/-- **C37, `sum *= a`**. -/
theorem C37_imul (leafVal : ℕ → V) (h : CostHeap K) (id : ℕ) (a : K) (cs : List (ℕ × K)) (v : V)
    (hid : h[id]? = some (.sum cs)) (hv : Computes leafVal h id v) :
    ∃ h', imulCost h id a = some h' ∧ Computes leafVal h' id (a • v) ∧
      ∀ j, ¬ Reaches h j id → ∀ w, Computes leafVal h' j w ↔ Computes leafVal h j w := by
  refine ⟨h.set id (.sum (cs.map fun c => (c.1, a * c.2))), by simp [imulCost, sumComps, hid], ?_, ?_⟩
  · obtain ⟨ws, rfl, h2, rfl⟩ := computes_sum_inv leafVal h id v cs hid hv
    have hlt : id < h.length := by
      by_contra hcon; rw [List.getElem?_eq_none (by omega)] at hid; cases hid
    have := computes_sum leafVal
      (h.set id (.sum ((ws.map (fun t => (t.1, t.2.1))).map fun c => (c.1, a * c.2)))) id
      (ws.map fun t => (t.1, a * t.2.1, t.2.2))
      (by rw [List.getElem?_set_self hlt]; simp [List.map_map, Function.comp_def]) (by
      intro t ht
      obtain ⟨u, hu, rfl⟩ := List.mem_map.1 ht
      have hna : ¬ Reaches h u.1 id := computes_acyclic leafVal h id _ hv u.1 ⟨_, hid, u.2.1, List.mem_map.2 ⟨u, hu, rfl⟩⟩
      exact (computes_frame leafVal h _ _ (closedIn_reach h u.1) (fun b hb => reaches_old _ hb hna) u.1
        Relation.ReflTransGen.refl _).2 (h2 u hu))
    rw [List.smul_sum]
    refine (congrArg (fun l => Computes leafVal _ id (List.sum l)) ?_).mp this
    rw [List.map_map, List.map_map]
    apply List.map_congr_left
    intro t _
    simp [mul_smul]
  · intro j hj w
    exact computes_frame leafVal h _ _ (closedIn_reach h j) (fun b hb => reaches_old _ hb hj) j
      Relation.ReflTransGen.refl _

/-! ### Failures -/

/-- The hypothesis "the added cost does not contain the sum" is needed: after `sum += sum_ptr` with the sum itself (as a
component), evaluating it never ends. -/
theorem C37_iadd_self_false (leafVal : ℕ → V) (h h' : CostHeap K) (id : ℕ) (hb : iaddCost h id id = some h') :
    ∀ fuel, costEval leafVal h' fuel id = none := by
  unfold iaddCost addComponent at hb
  simp only [Option.map_eq_some_iff] at hb
  obtain ⟨cs, hcs, rfl⟩ := hb
  have hlt : id < h.length := by
    unfold sumComps at hcs
    by_contra hcon
    rw [List.getElem?_eq_none (by omega)] at hcs
    cases hcs
  intro fuel
  by_contra hne
  obtain ⟨v, hv⟩ := Option.ne_none_iff_exists'.1 hne
  exact computes_acyclic leafVal _ id v (computes_of_eval _ _ _ _ _ hv) id
    ⟨_, List.getElem?_set_self hlt, 1, by simp⟩ Relation.ReflTransGen.refl

/-- `sum += *sum` (the overload for sums) is undefined. -/
theorem C37_iaddSum_self_false (h : CostHeap K) (id : ℕ) : iaddSum h id id = none := by simp [iaddSum]

/-- `std::move(s) + c` changes the object `s` points to, also for everyone else holding it: here object 1 is a sum over
the user cost 0; after the addition its value has doubled. -/
theorem C37_move_changes_operand_false :
    ∃ h' : CostHeap ℚ, plusMove ([.leaf 0, .sum [(0, 1)]] : CostHeap ℚ) 1 0 = some (h', 1) ∧
      costEval (fun _ => (3 : ℚ)) ([.leaf 0, .sum [(0, 1)]] : CostHeap ℚ) 5 1 = some 3 ∧
      costEval (fun _ => (3 : ℚ)) h' 5 1 = some 6 :=
  ⟨_, rfl, by norm_num [costEval], by norm_num [costEval]⟩

/-- non-vacuity: `2 * c0 + (-(c0 + c1))` over two user costs, values 5 and 7: `10 - 12 = -2` -/
example : ∃ (h' : CostHeap ℚ) (i : ℕ),
    (CostExpr.addMove (.smul 2 (.var 0)) (.neg (.add (.var 0) (.var 1))) : CostExpr ℚ).build 2 [.leaf 0, .leaf 1] = some (h', i) ∧
    costEval (fun k => if k = 0 then (5 : ℚ) else 7) h' 5 i = some (-2) :=
  ⟨_, _, rfl, by norm_num [costEval]⟩

example : ∀ j < ([.leaf 0, .leaf 1] : CostHeap ℚ).length,
    Computes (fun k => if k = 0 then (5 : ℚ) else 7) ([.leaf 0, .leaf 1] : CostHeap ℚ) j (if j = 0 then 5 else 7) := by
  intro j hj
  refine computes_of_eval _ _ 1 j _ ?_
  have : j = 0 ∨ j = 1 := by simp at hj; omega
  rcases this with rfl | rfl <;> simp [costEval]

end ProxNLP
