import Verif.Spec.PyOperators
import Verif.Props.CostSum
import Verif.Props.ManifoldOps

/-! Property theorems for C90 (operators on costs in Python) and for the product operator of C47 as Python runs it. -/

set_option linter.unusedSectionVars false
namespace ProxNLP

variable {K V : Type} [Field K] [AddCommGroup V] [Module K V]
open Spec

/-! ### Helper lemmas -/

theorem computes_lt {leafVal : ℕ → V} {h : CostHeap K} {j : ℕ} {v : V} (hv : Computes leafVal h j v) : j < h.length := by
  obtain ⟨N, hN⟩ := hv
  have := hN (N + 1) (by omega)
  by_contra hcon
  rw [costEval, List.getElem?_eq_none (by omega)] at this
  cases this

theorem computes_reaches {leafVal : ℕ → V} {h : CostHeap K} {j b : ℕ} {v : V} (hv : Computes leafVal h j v)
    (hr : Reaches h j b) : ∃ u, Computes leafVal h b u := by
  induction hr with
  | refl => exact ⟨v, hv⟩
  | tail _ hbc ih =>
    obtain ⟨u, hu⟩ := ih
    obtain ⟨cs, hcs, w, hw⟩ := hbc
    obtain ⟨ws, rfl, h2, -⟩ := computes_sum_inv leafVal h _ u cs hcs hu
    obtain ⟨t, ht, hte⟩ := List.mem_map.1 hw
    cases hte
    exact ⟨_, h2 t ht⟩

theorem reaches_frame {h h' : CostHeap K} {S : Set ℕ} (hS : ClosedIn h S) (hag : ∀ a ∈ S, h'[a]? = h[a]?) {a b : ℕ}
    (ha : a ∈ S) : Reaches h' a b ↔ Reaches h a b := by
  have comp : ∀ c ∈ S, ∀ d, IsComponent h' c d ↔ IsComponent h c d := by
    intro c hc d
    unfold IsComponent
    rw [hag c hc]
  constructor
  · intro hr
    have : Reaches h a b ∧ b ∈ S := by
      induction hr with
      | refl => exact ⟨Relation.ReflTransGen.refl, ha⟩
      | tail _ hbc ih =>
        obtain ⟨i1, i2⟩ := ih
        have hc := (comp _ i2 _).1 hbc
        exact ⟨i1.tail hc, hS _ i2 _ hc⟩
    exact this.1
  · intro hr
    have : Reaches h' a b ∧ b ∈ S := by
      induction hr with
      | refl => exact ⟨Relation.ReflTransGen.refl, ha⟩
      | tail _ hbc ih =>
        obtain ⟨i1, i2⟩ := ih
        exact ⟨i1.tail ((comp _ i2 _).2 hbc), hS _ i2 _ hbc⟩
    exact this.1

/-- a new object changes nothing about the old ones -/
theorem append_frame {leafVal : ℕ → V} {h : CostHeap K} {j : ℕ} {v : V} (o : CostObj K) (hv : Computes leafVal h j v) :
    Computes leafVal (h ++ [o]) j v ∧ ∀ b, Reaches (h ++ [o]) j b ↔ Reaches h j b := by
  have hag : ∀ a ∈ {b | Reaches h j b}, (h ++ [o])[a]? = h[a]? := by
    intro a ha
    obtain ⟨u, hu⟩ := computes_reaches hv ha
    exact getElem?_append_old _ _ _ (computes_lt hu)
  exact ⟨(computes_frame leafVal h _ _ (closedIn_reach h j) hag j Relation.ReflTransGen.refl _).2 hv,
    fun b => reaches_frame (closedIn_reach h j) hag Relation.ReflTransGen.refl⟩

/-- changing an object changes nothing about those that do not contain it -/
theorem set_frame {leafVal : ℕ → V} {h : CostHeap K} {j id : ℕ} {v : V} (o : CostObj K) (hv : Computes leafVal h j v)
    (hn : ¬ Reaches h j id) : Computes leafVal (h.set id o) j v ∧ ∀ b, Reaches (h.set id o) j b ↔ Reaches h j b := by
  have hag : ∀ a ∈ {b | Reaches h j b}, (h.set id o)[a]? = h[a]? := fun a ha => reaches_old o ha hn
  exact ⟨(computes_frame leafVal h _ _ (closedIn_reach h j) hag j Relation.ReflTransGen.refl _).2 hv,
    fun b => reaches_frame (closedIn_reach h j) hag Relation.ReflTransGen.refl⟩

/-- Every name other than `ex` has its value, and no other name sees the object of an owned one. -/
structure PyInv (leafVal : ℕ → V) (ex : Option ℕ) (own : Set ℕ) (h : CostHeap K) (env : ℕ → Option ℕ) (σ : ℕ → V) : Prop where
  val : ∀ w, some w ≠ ex → ∀ j, env w = some j → Computes leafVal h j (σ w)
  own : ∀ u ∈ own, some u ≠ ex → ∀ id, env u = some id → ∀ w, w ≠ u → some w ≠ ex → ∀ j, env w = some j → ¬ Reaches h j id

theorem PyInv.weaken {leafVal : ℕ → V} {own : Set ℕ} {h : CostHeap K} {env : ℕ → Option ℕ} {σ : ℕ → V}
    (inv : PyInv leafVal none own h env σ) (x : ℕ) : PyInv leafVal (some x) own h env σ :=
  ⟨fun w _ => inv.val w (by simp), fun u hu _ id hid w hw _ => inv.own u hu (by simp) id hid w hw (by simp)⟩

/-- binding a name to a new object -/
theorem PyInv.alloc {leafVal : ℕ → V} {own own' : Set ℕ} {h : CostHeap K} {env : ℕ → Option ℕ} {σ : ℕ → V} {x : ℕ}
    (inv : PyInv leafVal (some x) own h env σ) (o : CostObj K) (v : V) (hv : Computes leafVal (h ++ [o]) h.length v)
    (hown : ∀ u ∈ own', u ≠ x → u ∈ own)
    (hc : ∀ b, IsComponent (h ++ [o]) h.length b → (∃ u, Computes leafVal h b u) ∧
      ∀ u ∈ own', u ≠ x → ∀ id, env u = some id → ¬ Reaches h b id) :
    PyInv leafVal none own' (h ++ [o]) (Function.update env x (some h.length)) (Function.update σ x v) := by
  have hlt : ∀ w, w ≠ x → ∀ j, env w = some j → j < h.length := fun w hw j hj =>
    computes_lt (inv.val w (by simpa using hw) j hj)
  refine ⟨?_, ?_⟩
  · intro w _ j hj
    by_cases hw : w = x
    · subst hw
      rw [Function.update_self] at hj ⊢
      cases hj
      exact hv
    · rw [Function.update_of_ne hw] at hj ⊢
      exact (append_frame o (inv.val w (by simpa using hw) j hj)).1
  · intro u hu _ id hid w hwu _ j hj
    by_cases hux : u = x
    · subst hux
      rw [Function.update_self] at hid
      cases hid
      rw [Function.update_of_ne hwu] at hj
      have hcw := inv.val w (by simpa using hwu) j hj
      rw [(append_frame o hcw).2]
      intro hr
      obtain ⟨z, hz⟩ := computes_reaches hcw hr
      exact absurd (computes_lt hz) (lt_irrefl _)
    · rw [Function.update_of_ne hux] at hid
      have hidlt := hlt u hux id hid
      by_cases hwx : w = x
      · subst hwx
        rw [Function.update_self] at hj
        cases hj
        intro hr
        rcases Relation.ReflTransGen.cases_head hr with he | ⟨c, hc1, hc2⟩
        · omega
        · obtain ⟨⟨z, hz⟩, hno⟩ := hc c hc1
          exact hno u hu hux id hid ((append_frame o hz).2 id |>.1 hc2)
      · rw [Function.update_of_ne hwx] at hj
        have hcw := inv.val w (by simpa using hwx) j hj
        rw [(append_frame o hcw).2]
        exact inv.own u (hown u hu hux) (by simpa using hux) id hid w hwu (by simpa using hwx) j hj

theorem isComponent_new {h : CostHeap K} {cs : List (ℕ × K)} {b : ℕ}
    (hb : IsComponent (h ++ [CostObj.sum cs]) h.length b) : ∃ w, (b, w) ∈ cs := by
  obtain ⟨cs', hcs, w, hw⟩ := hb
  simp only [List.getElem?_concat_length, Option.some.injEq, CostObj.sum.injEq] at hcs
  subst hcs
  exact ⟨w, hw⟩

/-- binding a name to a new sum of existing objects -/
theorem PyInv.allocSum {leafVal : ℕ → V} {own own' : Set ℕ} {h : CostHeap K} {env : ℕ → Option ℕ} {σ : ℕ → V} {x : ℕ}
    (inv : PyInv leafVal (some x) own h env σ) (ws : List (ℕ × K × V)) (hw : ∀ t ∈ ws, Computes leafVal h t.1 t.2.2)
    (hown : ∀ u ∈ own', u ≠ x → u ∈ own)
    (hc : ∀ t ∈ ws, ∀ u ∈ own', u ≠ x → ∀ id, env u = some id → ¬ Reaches h t.1 id) :
    PyInv leafVal none own' (h ++ [.sum (ws.map fun t => (t.1, t.2.1))]) (Function.update env x (some h.length))
      (Function.update σ x (ws.map fun t => t.2.1 • t.2.2).sum) := by
  refine inv.alloc _ _ ?_ hown ?_
  · exact computes_sum leafVal _ _ ws (by simp) fun t ht => (append_frame _ (hw t ht)).1
  · intro b hb
    obtain ⟨w, hbw⟩ := isComponent_new hb
    obtain ⟨t, ht, hte⟩ := List.mem_map.1 hbw
    cases hte
    exact ⟨⟨_, hw t ht⟩, hc t ht⟩

theorem sumComps_some {h : CostHeap K} {id : ℕ} {cs : List (ℕ × K)} (hs : sumComps h id = some cs) :
    h[id]? = some (.sum cs) := by
  unfold sumComps at hs
  split at hs
  · rename_i cs' he; cases hs; exact he
  · cases hs

/-- a component of a named sum does not reach the object of an owned name other than the sum's -/
theorem PyInv.comp_not_reach {leafVal : ℕ → V} {own : Set ℕ} {h : CostHeap K} {env : ℕ → Option ℕ} {σ : ℕ → V}
    (inv : PyInv leafVal none own h env σ) {y i : ℕ} (hy : env y = some i) {b : ℕ} (hb : IsComponent h i b) {u id : ℕ}
    (hu : u ∈ own) (huy : y ≠ u) (hid : env u = some id) : ¬ Reaches h b id := fun hr =>
  inv.own u hu (by simp) id hid y huy (by simp) i hy (Relation.ReflTransGen.head hb hr)

theorem smul_sum_map (a : K) (ws : List (ℕ × K × V)) :
    a • (ws.map fun t => t.2.1 • t.2.2).sum = ((ws.map fun t => (t.1, a * t.2.1, t.2.2)).map fun t => t.2.1 • t.2.2).sum := by
  rw [List.smul_sum, List.map_map, List.map_map]
  congr 1
  apply List.map_congr_left
  intro t _
  simp [mul_smul]

/-- binding a name to a scaled clone of a sum -/
theorem PyInv.mulSum {leafVal : ℕ → V} {own own' : Set ℕ} {h h' : CostHeap K} {env : ℕ → Option ℕ} {σ : ℕ → V} {x y i k : ℕ} {a : K}
    (inv : PyInv leafVal none own h env σ) (hy : env y = some i) (hm : mulSum h i a = some (h', k))
    (hown : ∀ u ∈ own', u ≠ x → u ∈ own) :
    PyInv leafVal none own' h' (Function.update env x (some k)) (Function.update σ x (a • σ y)) := by
  unfold ProxNLP.mulSum at hm
  simp only [Option.map_eq_some_iff, Prod.mk.injEq] at hm
  obtain ⟨cs, hcs, rfl, rfl⟩ := hm
  have hi := sumComps_some hcs
  obtain ⟨ws, rfl, h2, h3⟩ := computes_sum_inv leafVal h i _ cs hi (inv.val y (by simp) i hy)
  rw [h3, smul_sum_map]
  have := (inv.weaken x).allocSum (own' := own') (ws.map fun t => (t.1, a * t.2.1, t.2.2)) (by
    intro t ht
    obtain ⟨u, hu, rfl⟩ := List.mem_map.1 ht
    exact h2 u hu) hown (by
    intro t ht u hu hux id hid
    obtain ⟨t', ht', rfl⟩ := List.mem_map.1 ht
    have hcomp : IsComponent h i t'.1 := ⟨_, hi, t'.2.1, List.mem_map.2 ⟨t', ht', rfl⟩⟩
    by_cases huy : y = u
    · subst huy
      rw [hy] at hid
      cases hid
      exact computes_acyclic leafVal h i _ (inv.val y (by simp) i hy) _ hcomp
    · exact inv.comp_not_reach hy hcomp (hown u hu hux) huy hid)
  simpa [List.map_map, Function.comp_def] using this

/-- changing the object of an owned name in place, from the point of view of the other names -/
theorem PyInv.setOwned {leafVal : ℕ → V} {own : Set ℕ} {h : CostHeap K} {env : ℕ → Option ℕ} {σ : ℕ → V} {x i : ℕ}
    (inv : PyInv leafVal none own h env σ) (hx : x ∈ own) (hi : env x = some i) (o : CostObj K) :
    PyInv leafVal (some x) own (h.set i o) env σ := by
  have hno : ∀ w, w ≠ x → ∀ j, env w = some j → ¬ Reaches h j i := fun w hw j hj =>
    inv.own x hx (by simp) i hi w hw (by simp) j hj
  refine ⟨fun w hw j hj => ?_, fun u hu hux id hid w hwu hwx j hj => ?_⟩
  · exact (set_frame o (inv.val w (by simp) j hj) (hno w (by simpa using hw) j hj)).1
  · rw [(set_frame o (inv.val w (by simp) j hj) (hno w (by simpa using hwx) j hj)).2]
    exact inv.own u hu (by simp) id hid w hwu (by simp) j hj

/-- the components of the changed sum after `+=`/`add_component`/`*=` -/
theorem PyInv.changed {leafVal : ℕ → V} {own : Set ℕ} {h : CostHeap K} {env : ℕ → Option ℕ} {σ : ℕ → V} {x i : ℕ}
    (inv : PyInv leafVal none own h env σ) (hi : env x = some i) {cs : List (ℕ × K)} (hcs : h[i]? = some (.sum cs)) (o : CostObj K) :
    ∃ ws : List (ℕ × K × V), cs = ws.map (fun t => (t.1, t.2.1)) ∧ (∀ t ∈ ws, Computes leafVal (h.set i o) t.1 t.2.2) ∧
      σ x = (ws.map fun t => t.2.1 • t.2.2).sum ∧
      ∀ t ∈ ws, ∀ u ∈ own, u ≠ x → ∀ id, env u = some id → ¬ Reaches (h.set i o) t.1 id := by
  have hvx := inv.val x (by simp) i hi
  obtain ⟨ws, rfl, h2, h3⟩ := computes_sum_inv leafVal h i _ cs hcs hvx
  refine ⟨ws, rfl, ?_, h3, ?_⟩
  · intro t ht
    have hcomp : IsComponent h i t.1 := ⟨_, hcs, t.2.1, List.mem_map.2 ⟨t, ht, rfl⟩⟩
    exact (set_frame o (h2 t ht) (computes_acyclic leafVal h i _ hvx _ hcomp)).1
  · intro t ht u hu hux id hid
    have hcomp : IsComponent h i t.1 := ⟨_, hcs, t.2.1, List.mem_map.2 ⟨t, ht, rfl⟩⟩
    rw [(set_frame o (h2 t ht) (computes_acyclic leafVal h i _ hvx _ hcomp)).2]
    exact inv.comp_not_reach hi hcomp hu (Ne.symm hux) hid

theorem set_sumComps {h : CostHeap K} {i : ℕ} {cs cs' : List (ℕ × K)} (hcs : h[i]? = some (.sum cs)) :
    sumComps (h.set i (.sum cs')) i = some cs' := by
  have hlt : i < h.length := by
    by_contra hcon; rw [List.getElem?_eq_none (by omega)] at hcs; cases hcs
  simp [sumComps, List.getElem?_set_self hlt]

/-- `x += y` -/
theorem PyInv.iadd {leafVal : ℕ → V} {own : Set ℕ} {h : CostHeap K} {env : ℕ → Option ℕ} {σ : ℕ → V} {x y i j : ℕ}
    (inv : PyInv leafVal none own h env σ) (hx : x ∈ own) (hyx : y ≠ x) (hi : env x = some i) (hj : env y = some j) :
    PyInv leafVal none (insert x (own \ {y})) ((pyIaddSum h i j).getD (plusCost h i j)).1
      (Function.update env x (some ((pyIaddSum h i j).getD (plusCost h i j)).2)) (Function.update σ x (σ x + σ y)) := by
  have hown : ∀ u ∈ insert x (own \ {y}), u ≠ x → u ∈ own ∧ u ≠ y := by
    intro u hu hux
    rcases hu with rfl | hu
    · exact absurd rfl hux
    · exact ⟨hu.1, by simpa using hu.2⟩
  cases hcs : sumComps h i with
  | none =>
    have he : pyIaddSum h i j = none := by simp [pyIaddSum, iaddCost, addComponent, hcs]
    rw [he, Option.getD_none]
    have := (inv.weaken x).allocSum (own' := insert x (own \ {y})) [(i, 1, σ x), (j, 1, σ y)] (by
      intro t ht
      simp only [List.mem_cons, List.not_mem_nil, or_false] at ht
      rcases ht with rfl | rfl
      · exact inv.val x (by simp) i hi
      · exact inv.val y (by simp) j hj) (fun u hu hux => (hown u hu hux).1) (by
      intro t ht u hu hux id hid
      obtain ⟨hu1, hu2⟩ := hown u hu hux
      simp only [List.mem_cons, List.not_mem_nil, or_false] at ht
      rcases ht with rfl | rfl
      · exact inv.own u hu1 (by simp) id hid x (Ne.symm hux) (by simp) i hi
      · exact inv.own u hu1 (by simp) id hid y (Ne.symm hu2) (by simp) j hj)
    simpa [plusCost] using this
  | some cs =>
    have hh := sumComps_some hcs
    have he : pyIaddSum h i j = some (h.set i (.sum (cs ++ [(j, 1)])) ++ [.sum (cs ++ [(j, 1)])], h.length) := by
      simp only [pyIaddSum, iaddCost, addComponent, hcs, Option.map_some]
      rw [set_sumComps hh]
      simp
    rw [he, Option.getD_some]
    obtain ⟨ws, rfl, h2, h3, h4⟩ := inv.changed hi hh (.sum (cs ++ [(j, 1)]))
    have hvy := inv.val y (by simp) j hj
    have hny : ¬ Reaches h j i := inv.own x hx (by simp) i hi y hyx (by simp) j hj
    have := (inv.setOwned hx hi (.sum (ws.map (fun t => (t.1, t.2.1)) ++ [(j, 1)]))).allocSum (own' := insert x (own \ {y}))
      (ws ++ [(j, 1, σ y)]) (by
      intro t ht
      rcases List.mem_append.1 ht with ht | ht
      · exact h2 t ht
      · simp only [List.mem_singleton] at ht
        subst ht
        exact (set_frame _ hvy hny).1) (fun u hu hux => (hown u hu hux).1) (by
      intro t ht u hu hux id hid
      obtain ⟨hu1, hu2⟩ := hown u hu hux
      rcases List.mem_append.1 ht with ht | ht
      · exact h4 t ht u hu1 hux id hid
      · simp only [List.mem_singleton] at ht
        subst ht
        rw [(set_frame _ hvy hny).2]
        exact inv.own u hu1 (by simp) id hid y (Ne.symm hu2) (by simp) j hj)
    rw [h3]
    simpa using this

/-- `x *= a` -/
theorem PyInv.imul {leafVal : ℕ → V} {own : Set ℕ} {h : CostHeap K} {env : ℕ → Option ℕ} {σ : ℕ → V} {x i : ℕ} {a : K}
    (inv : PyInv leafVal none own h env σ) (hx : x ∈ own) (hi : env x = some i) :
    PyInv leafVal none (insert x own) ((pyImulSum h i a).getD (scaleCost h a i)).1
      (Function.update env x (some ((pyImulSum h i a).getD (scaleCost h a i)).2)) (Function.update σ x (a • σ x)) := by
  have hown : ∀ u ∈ insert x own, u ≠ x → u ∈ own := by
    intro u hu hux
    rcases hu with rfl | hu
    · exact absurd rfl hux
    · exact hu
  cases hcs : sumComps h i with
  | none =>
    have he : pyImulSum h i a = none := by simp [pyImulSum, imulCost, hcs]
    rw [he, Option.getD_none]
    have := (inv.weaken x).allocSum (own' := insert x own) [(i, a, σ x)] (by
      intro t ht
      simp only [List.mem_singleton] at ht
      subst ht
      exact inv.val x (by simp) i hi) hown (by
      intro t ht u hu hux id hid
      simp only [List.mem_singleton] at ht
      subst ht
      exact inv.own u (hown u hu hux) (by simp) id hid x (Ne.symm hux) (by simp) i hi)
    simpa [scaleCost] using this
  | some cs =>
    have hh := sumComps_some hcs
    have he : pyImulSum h i a =
        some (h.set i (.sum (cs.map fun c => (c.1, a * c.2))) ++ [.sum (cs.map fun c => (c.1, a * c.2))], h.length) := by
      simp only [pyImulSum, imulCost, hcs, Option.map_some]
      rw [set_sumComps hh]
      simp
    rw [he, Option.getD_some]
    obtain ⟨ws, rfl, h2, h3, h4⟩ := inv.changed hi hh (.sum (cs.map fun c => (c.1, a * c.2)))
    have := (inv.setOwned hx hi (.sum ((ws.map (fun t => (t.1, t.2.1))).map fun c => (c.1, a * c.2)))).allocSum (own' := insert x own)
      (ws.map fun t => (t.1, a * t.2.1, t.2.2)) (by
      intro t ht
      obtain ⟨u, hu, rfl⟩ := List.mem_map.1 ht
      exact h2 u hu) hown (by
      intro t ht u hu hux id hid
      obtain ⟨t', ht', rfl⟩ := List.mem_map.1 ht
      exact h4 t' ht' u (hown u hu hux) hux id hid)
    rw [h3, smul_sum_map]
    simpa [List.map_map, Function.comp_def] using this

/-- `x.add_component(y, w)` -/
theorem PyInv.addComponent {leafVal : ℕ → V} {own : Set ℕ} {h h' : CostHeap K} {env : ℕ → Option ℕ} {σ : ℕ → V} {x y i j : ℕ} {a : K}
    (inv : PyInv leafVal none own h env σ) (hx : x ∈ own) (hyx : y ≠ x) (hi : env x = some i) (hj : env y = some j)
    (ha : addComponent h i j a = some h') :
    PyInv leafVal none (own \ {y}) h' env (Function.update σ x (σ x + a • σ y)) := by
  unfold ProxNLP.addComponent at ha
  simp only [Option.map_eq_some_iff] at ha
  obtain ⟨cs, hcs, rfl⟩ := ha
  have hh := sumComps_some hcs
  have hvy := inv.val y (by simp) j hj
  have hny : ¬ Reaches h j i := inv.own x hx (by simp) i hi y hyx (by simp) j hj
  obtain ⟨ws, rfl, h2, h3, h4⟩ := inv.changed hi hh (.sum (cs ++ [(j, a)]))
  have hset := inv.setOwned hx hi (.sum (ws.map (fun t => (t.1, t.2.1)) ++ [(j, a)]))
  have hlt : i < h.length := computes_lt (inv.val x (by simp) i hi)
  have hget : (h.set i (.sum (ws.map (fun t => (t.1, t.2.1)) ++ [(j, a)])))[i]? =
      some (.sum (ws.map (fun t => (t.1, t.2.1)) ++ [(j, a)])) := List.getElem?_set_self hlt
  refine ⟨?_, ?_⟩
  · intro w _ k hk
    by_cases hw : w = x
    · subst hw
      rw [hi] at hk
      cases hk
      rw [Function.update_self, h3]
      have := computes_sum leafVal (h.set i (.sum (ws.map (fun t => (t.1, t.2.1)) ++ [(j, a)]))) i (ws ++ [(j, a, σ y)])
        (by rw [hget]; simp) (by
        intro t ht
        rcases List.mem_append.1 ht with ht | ht
        · exact h2 t ht
        · simp only [List.mem_singleton] at ht
          subst ht
          exact (set_frame _ hvy hny).1)
      simpa using this
    · rw [Function.update_of_ne hw]
      exact hset.val w (by simpa using hw) k hk
  · rintro u ⟨hu, huy⟩ _ id hid w hwu _ k hk
    have huy : u ≠ y := by simpa using huy
    by_cases hux : u = x
    · subst hux
      rw [hi] at hid
      cases hid
      have hnk : ¬ Reaches h k i := inv.own u hx (by simp) i hi w hwu (by simp) k hk
      rw [(set_frame _ (inv.val w (by simp) k hk) hnk).2]
      exact hnk
    · by_cases hwx : w = x
      · subst hwx
        rw [hi] at hk
        cases hk
        intro hr
        rcases Relation.ReflTransGen.cases_head hr with he | ⟨c, hc1, hc2⟩
        · subst he
          exact inv.own u hu (by simp) i hid w hwu (by simp) i hi Relation.ReflTransGen.refl
        · obtain ⟨cs', hcs', z, hz⟩ := hc1
          rw [hget] at hcs'
          simp only [Option.some.injEq, CostObj.sum.injEq] at hcs'
          subst hcs'
          rcases List.mem_append.1 hz with hz | hz
          · obtain ⟨t, ht, hte⟩ := List.mem_map.1 hz
            cases hte
            exact h4 t ht u hu hux id hid hc2
          · simp only [List.mem_singleton, Prod.mk.injEq] at hz
            obtain ⟨rfl, rfl⟩ := hz
            exact inv.own u hu (by simp) id hid y (Ne.symm huy) (by simp) c hj (((set_frame _ hvy hny).2 id).1 hc2)
      · exact hset.own u hu (by simpa using hux) id hid w hwu (by simpa using hwx) k hk

theorem PyInv.step {leafVal : ℕ → V} {own : Set ℕ} {s s' : PyState K} {σ : ℕ → V} (inv : PyInv leafVal none own s.heap s.env σ)
    (st : PyStmt K) (hal : Allowed own st) (he : pyExec s st = some s') :
    PyInv leafVal none (ownedAfter own st) s'.heap s'.env (pyValue leafVal σ st) := by
  have hins : ∀ x : ℕ, ∀ S : Set ℕ, ∀ u ∈ insert x S, u ≠ x → u ∈ S := by
    intro x S u hu hux
    rcases hu with rfl | hu
    · exact absurd rfl hux
    · exact hu
  cases st with
  | bindLeaf x k =>
    simp only [pyExec, PyState.bind, Option.some.injEq] at he
    subst he
    refine (inv.weaken x).alloc (.leaf k) _ (computes_of_eval _ _ 1 _ _ (by simp [costEval])) (hins x own) ?_
    rintro b ⟨cs, hcs, -⟩
    simp at hcs
  | assign x y =>
    simp only [pyExec, PyState.bind, Option.map_eq_some_iff] at he
    obtain ⟨j, hj, rfl⟩ := he
    refine ⟨?_, ?_⟩
    · intro w _ k hk
      simp only [pyValue] at hk ⊢
      by_cases hw : w = x
      · subst hw
        rw [Function.update_self] at hk ⊢
        cases hk
        exact inv.val y (by simp) j hj
      · rw [Function.update_of_ne hw] at hk ⊢
        exact inv.val w (by simp) k hk
    · rintro u ⟨hu, huxy⟩ _ id hid w hwu _ k hk
      simp only [Set.mem_insert_iff, Set.mem_singleton_iff, not_or] at huxy
      simp only at hid hk
      rw [Function.update_of_ne huxy.1] at hid
      by_cases hw : w = x
      · subst hw
        rw [Function.update_self] at hk
        cases hk
        exact inv.own u hu (by simp) id hid y (Ne.symm huxy.2) (by simp) j hj
      · rw [Function.update_of_ne hw] at hk
        exact inv.own u hu (by simp) id hid w hwu (by simp) k hk
  | newSum x =>
    simp only [pyExec, PyState.bind, Option.some.injEq] at he
    subst he
    have := (inv.weaken x).allocSum (own' := insert x own) [] (by simp) (hins x own) (by simp)
    simpa [pyValue, ownedAfter] using this
  | add x y z =>
    simp only [pyExec, PyState.bind, Option.bind_eq_some_iff, Option.map_eq_some_iff] at he
    obtain ⟨i, hi, j, hj, rfl⟩ := he
    have hown : ∀ u ∈ insert x (own \ {y, z}), u ≠ x → u ∈ own ∧ u ≠ y ∧ u ≠ z := by
      intro u hu hux
      obtain ⟨h1, h2⟩ := hins x _ u hu hux
      simp only [Set.mem_insert_iff, Set.mem_singleton_iff, not_or] at h2
      exact ⟨h1, h2⟩
    have := (inv.weaken x).allocSum (own' := insert x (own \ {y, z})) [(i, 1, σ y), (j, 1, σ z)] (by
      intro t ht
      simp only [List.mem_cons, List.not_mem_nil, or_false] at ht
      rcases ht with rfl | rfl
      · exact inv.val y (by simp) i hi
      · exact inv.val z (by simp) j hj) (fun u hu hux => (hown u hu hux).1) (by
      intro t ht u hu hux id hid
      obtain ⟨hu1, hu2, hu3⟩ := hown u hu hux
      simp only [List.mem_cons, List.not_mem_nil, or_false] at ht
      rcases ht with rfl | rfl
      · exact inv.own u hu1 (by simp) id hid y (Ne.symm hu2) (by simp) i hi
      · exact inv.own u hu1 (by simp) id hid z (Ne.symm hu3) (by simp) j hj)
    simpa [pyValue, ownedAfter, plusCost] using this
  | mul x a y =>
    simp only [pyExec, PyState.bind, Option.map_eq_some_iff] at he
    obtain ⟨i, hi, rfl⟩ := he
    have hown : ∀ u ∈ insert x (own \ {y}), u ≠ x → u ∈ own ∧ u ≠ y := by
      intro u hu hux
      obtain ⟨h1, h2⟩ := hins x _ u hu hux
      exact ⟨h1, by simpa using h2⟩
    cases hm : ProxNLP.mulSum s.heap i a with
    | some r =>
      have := inv.mulSum (x := x) (own' := insert x (own \ {y})) (k := r.2) (h' := r.1) hi hm fun u hu hux => (hown u hu hux).1
      simpa [pyValue, ownedAfter, pyMul, hm] using this
    | none =>
      have := (inv.weaken x).allocSum (own' := insert x (own \ {y})) [(i, a, σ y)] (by
        intro t ht
        simp only [List.mem_singleton] at ht
        subst ht
        exact inv.val y (by simp) i hi) (fun u hu hux => (hown u hu hux).1) (by
        intro t ht u hu hux id hid
        simp only [List.mem_singleton] at ht
        subst ht
        obtain ⟨hu1, hu2⟩ := hown u hu hux
        exact inv.own u hu1 (by simp) id hid y (Ne.symm hu2) (by simp) i hi)
      simpa [pyValue, ownedAfter, pyMul, hm, scaleCost] using this
  | neg x y =>
    simp only [pyExec, PyState.bind, Option.bind_eq_some_iff, Option.map_eq_some_iff] at he
    obtain ⟨i, hi, r, hr, rfl⟩ := he
    have := inv.mulSum (x := x) (own' := insert x own) (k := r.2) (h' := r.1) hi hr (hins x own)
    simpa [pyValue, ownedAfter] using this
  | iadd x y =>
    simp only [pyExec, PyState.bind, Option.bind_eq_some_iff, Option.map_eq_some_iff] at he
    obtain ⟨i, hi, j, hj, rfl⟩ := he
    exact inv.iadd hal.1 hal.2 hi hj
  | imul x a =>
    simp only [pyExec, PyState.bind, Option.map_eq_some_iff] at he
    obtain ⟨i, hi, rfl⟩ := he
    exact inv.imul hal hi
  | addComponent x y w =>
    simp only [pyExec, Option.bind_eq_some_iff, Option.map_eq_some_iff] at he
    obtain ⟨i, hi, j, hj, h', ha, rfl⟩ := he
    exact inv.addComponent hal.1 hal.2 hi hj ha

theorem PyInv.run {leafVal : ℕ → V} {own : Set ℕ} {s s' : PyState K} {σ : ℕ → V} (inv : PyInv leafVal none own s.heap s.env σ)
    (prog : List (PyStmt K)) (hd : Disciplined own prog) (he : pyRun s prog = some s') :
    ∃ own', PyInv leafVal none own' s'.heap s'.env (prog.foldl (pyValue leafVal) σ) := by
  induction prog generalizing s σ own with
  | nil => simp only [pyRun, Option.some.injEq] at he; subst he; exact ⟨own, inv⟩
  | cons st rest ih =>
    simp only [pyRun, Option.bind_eq_some_iff] at he
    obtain ⟨s1, h1, h2⟩ := he
    exact ih (inv.step st hd.1 h1) hd.2 h2

/-! ### C90 -/

/-- **C90, proved part**: a program that starts without costs and only changes objects in place that no other name sees (for instance
one without in-place statements, or one that collects a sum with `+=`, `*=` and `add_component` before using it) leaves every name
bound to a cost that evaluates (value, gradient, Hessian) to what the same statements compute on values. -/
theorem C90_values_partial (leafVal : ℕ → V) (prog : List (PyStmt K)) (s : PyState K) (hd : Disciplined ∅ prog)
    (hr : pyRun ⟨[], fun _ => none⟩ prog = some s) (σ₀ : ℕ → V) (x id : ℕ) (hx : s.env x = some id) :
    Computes leafVal s.heap id (prog.foldl (pyValue leafVal) σ₀ x) := by
  obtain ⟨own', inv⟩ := PyInv.run (leafVal := leafVal) (own := ∅) (s := ⟨[], fun _ => none⟩) (σ := σ₀)
    ⟨fun w _ j hj => by simp at hj, fun u hu => by simp at hu⟩ prog hd hr
  exact inv.val x (by simp) id hx

/-- **C90, in-place operators, proved part**: whatever other names see, directly after `x += y` the name `x` evaluates to the sum of
what `x` and `y` evaluated to, and every name whose object did not contain the one of `x` evaluates to what it did; the added cost
must not contain the one it is added to. -/
theorem C90_iadd_partial (leafVal : ℕ → V) (s : PyState K) (σ : ℕ → V) (x y i j : ℕ)
    (hval : ∀ w k, s.env w = some k → Computes leafVal s.heap k (σ w)) (hi : s.env x = some i) (hj : s.env y = some j)
    (hno : ¬ Reaches s.heap j i) :
    ∃ s' i', pyExec s (.iadd x y) = some s' ∧ s'.env x = some i' ∧ Computes leafVal s'.heap i' (σ x + σ y) ∧
      ∀ w k, w ≠ x → s.env w = some k → ¬ Reaches s.heap k i → s'.env w = some k ∧ Computes leafVal s'.heap k (σ w) := by
  cases hcs : sumComps s.heap i with
  | none =>
    have he : pyIaddSum s.heap i j = none := by simp [pyIaddSum, iaddCost, addComponent, hcs]
    refine ⟨_, s.heap.length, by simp only [pyExec, hi, hj, Option.bind_some, Option.map_some, he, Option.getD_none]; rfl, ?_, ?_, ?_⟩
    · simp [PyState.bind, plusCost]
    · have := computes_sum leafVal (s.heap ++ [CostObj.sum [(i, (1 : K)), (j, 1)]]) s.heap.length [(i, 1, σ x), (j, 1, σ y)]
        (by simp) (by
        intro t ht
        simp only [List.mem_cons, List.not_mem_nil, or_false] at ht
        rcases ht with rfl | rfl
        · exact (append_frame _ (hval x i hi)).1
        · exact (append_frame _ (hval y j hj)).1)
      simpa [PyState.bind, plusCost] using this
    · intro w k hw hk _
      exact ⟨by simpa [PyState.bind, Function.update_of_ne hw] using hk, (append_frame _ (hval w k hk)).1⟩
  | some cs =>
    have hh := sumComps_some hcs
    have he : pyIaddSum s.heap i j = some (s.heap.set i (.sum (cs ++ [(j, 1)])) ++ [.sum (cs ++ [(j, 1)])], s.heap.length) := by
      simp only [pyIaddSum, iaddCost, addComponent, hcs, Option.map_some]
      rw [set_sumComps hh]
      simp
    refine ⟨_, s.heap.length, by simp only [pyExec, hi, hj, Option.bind_some, Option.map_some, he, Option.getD_some]; rfl, ?_, ?_, ?_⟩
    · simp [PyState.bind]
    · have hvx := hval x i hi
      obtain ⟨ws, rfl, h2, h3⟩ := computes_sum_inv leafVal s.heap i _ cs hh hvx
      have := computes_sum leafVal (s.heap.set i (.sum (ws.map (fun t => (t.1, t.2.1)) ++ [(j, 1)])) ++
          [.sum (ws.map (fun t => (t.1, t.2.1)) ++ [(j, 1)])]) s.heap.length (ws ++ [(j, 1, σ y)]) (by
          rw [List.getElem?_append_right (by simp)]; simp) (by
        intro t ht
        rcases List.mem_append.1 ht with ht | ht
        · have hcomp : IsComponent s.heap i t.1 := ⟨_, hh, t.2.1, List.mem_map.2 ⟨t, ht, rfl⟩⟩
          exact (append_frame _ (set_frame _ (h2 t ht) (computes_acyclic leafVal s.heap i _ hvx _ hcomp)).1).1
        · simp only [List.mem_singleton] at ht
          subst ht
          exact (append_frame _ (set_frame _ (hval y j hj) hno).1).1)
      rw [h3]
      simpa [PyState.bind] using this
    · intro w k hw hk hn
      exact ⟨by simpa [PyState.bind, Function.update_of_ne hw] using hk, (append_frame _ (set_frame _ (hval w k hk) hn).1).1⟩

/-! ### Failures -/

namespace Demo

/-- `c = cost; s = CostSum(nx, ndx); t = s; s += c; s += c` (names 0, 1, 2 for `c`, `s`, `t`) -/
def pyAlias : List (PyStmt ℚ) := [.bindLeaf 0 0, .newSum 1, .assign 2 1, .iadd 1 0, .iadd 1 0]

/-- `c = cost; s = CostSum(nx, ndx); t = CostSum(nx, ndx); t += c; s += t; t *= 2` -/
def pyAdded : List (PyStmt ℚ) := [.bindLeaf 0 0, .newSum 1, .newSum 2, .iadd 2 0, .iadd 1 2, .imul 2 2]

/-- `c = cost; s = c + c; s += s` -/
def pySelf : List (PyStmt ℚ) := [.bindLeaf 0 0, .add 1 0 0, .iadd 1 1]

/-- `c = cost; d = cost; s = CostSum(nx, ndx); s += c; s *= 3; s.add_component(d, 2); t = s; e = -s; p = e + d; p += c; q = 5 * p` -/
def pyBuilder : List (PyStmt ℚ) := [.bindLeaf 0 0, .bindLeaf 1 1, .newSum 2, .iadd 2 0, .imul 2 3, .addComponent 2 1 2, .assign 3 2,
  .neg 4 2, .add 5 4 1, .iadd 5 0, .mul 6 5 5]

end Demo

/-- **C90 is false**: the first `+=` through one name is seen through the other name bound to the sum, the second is not. With the
user cost worth 1, `t` evaluates to 1 where `s` evaluates to 2: neither what values (0) nor what a shared object (2) would give. -/
theorem C90_alias_false :
    pyEval (fun _ => (1 : ℚ)) Demo.pyAlias 5 1 = some 2 ∧ pyEval (fun _ => (1 : ℚ)) Demo.pyAlias 5 2 = some 1 ∧
    Demo.pyAlias.foldl (pyValue fun _ => (1 : ℚ)) (fun _ => 0) 2 = 0 :=
  ⟨by decide +kernel, by decide +kernel, by decide +kernel⟩

/-- **C90 is false**: a sum added with `+=` is added by reference, so changing it in place afterwards also changes the sum it was added
to: `s` evaluates to 1 before and to 2 after `t *= 2`. (The C++ operator for two sums copies the components.) -/
theorem C90_added_sum_false :
    pyEval (fun _ => (1 : ℚ)) (Demo.pyAdded.take 5) 5 1 = some 1 ∧ pyEval (fun _ => (1 : ℚ)) Demo.pyAdded 5 1 = some 2 ∧
    Demo.pyAdded.foldl (pyValue fun _ => (1 : ℚ)) (fun _ => 0) 1 = 1 :=
  ⟨by decide +kernel, by decide +kernel, by decide +kernel⟩

/-- **C90 is false**: after `s += s` no evaluation of `s` ends, although all statements ran. -/
theorem C90_self_false :
    pyRun ⟨[], fun _ => none⟩ Demo.pySelf ≠ none ∧ ∀ fuel, pyEval (fun _ => (1 : ℚ)) Demo.pySelf fuel 1 = none := by
  have hheap : (pyRun ⟨[], fun _ => none⟩ Demo.pySelf).map (fun s => (s.heap, s.env 1)) =
      some ([.leaf 0, .sum [(0, 1), (0, 1), (1, 1)], .sum [(0, 1), (0, 1), (1, 1)]], some 2) := rfl
  obtain ⟨s, hs, he⟩ := Option.map_eq_some_iff.1 hheap
  simp only [Prod.mk.injEq] at he
  obtain ⟨e1, e2⟩ := he
  refine ⟨by rw [hs]; simp, fun fuel => ?_⟩
  rw [pyEval, hs, Option.bind_some, e2, Option.bind_some]
  by_contra hne
  obtain ⟨v, hv⟩ := Option.ne_none_iff_exists'.1 hne
  obtain ⟨u, hu⟩ := computes_reaches (b := 1) (computes_of_eval _ _ _ _ _ hv)
    (Relation.ReflTransGen.single ⟨[(0, 1), (0, 1), (1, 1)], by rw [e1]; rfl, 1, by simp⟩)
  exact computes_acyclic _ _ 1 u hu 1 ⟨[(0, 1), (0, 1), (1, 1)], by rw [e1]; rfl, 1, by simp⟩ Relation.ReflTransGen.refl

/-- C90 is not vacuous: a program with every kind of statement is disciplined, runs, and (with the user costs worth 1 and 10)
`q` is `5 * (-(3*1 + 2*10) + 10 + 1)`. -/
example : Disciplined ∅ Demo.pyBuilder := by
  simp [Demo.pyBuilder, Disciplined, Allowed, ownedAfter]

example : pyEval (fun k => if k = 0 then (1 : ℚ) else 10) Demo.pyBuilder 9 6 = some (-60) ∧
    Demo.pyBuilder.foldl (pyValue fun k => if k = 0 then (1 : ℚ) else 10) (fun _ => 0) 6 = -60 :=
  ⟨by decide +kernel, by decide +kernel⟩

/-! ### C47 in Python -/

/-- **C47 in Python, proved part**: a chain `M1 * M2 * ... * Mn` of plain manifolds (evaluated from the left) has the factors in order,
and so have a product times a plain manifold and (in the reading where the left product is copied) two products. -/
theorem C47_python_chain_partial (nests : Bool) (a b : Manifold K) (Ms as bs : List (Manifold K)) :
    Ms.foldl (fun acc M => pyProdMul nests (.prod acc) (.plain M)) (pyProdMul nests (.plain a) (.plain b)) = a :: b :: Ms ∧
    pyProdMul nests (.prod as) (.plain b) = as ++ [b] ∧
    pyProdMul false (.prod as) (.prod bs) = as ++ bs := by
  refine ⟨?_, rfl, (C47_order_partial false a b as bs).2.2.1⟩
  have : ∀ acc : List (Manifold K), Ms.foldl (fun acc M => pyProdMul nests (.prod acc) (.plain M)) acc = acc ++ Ms := by
    induction Ms with
    | nil => simp
    | cons M Ms ih => intro acc; rw [List.foldl_cons, ih]; simp [pyProdMul, prodMul]
  rw [this]
  rfl

/-- **C47 is false** in Python: `a * (b * c)` has the factors `b`, `c`, `a`. -/
theorem C47_python_grouped_false (nests : Bool) (a b c : Manifold K) :
    pyProdMul nests (.plain a) (.prod (pyProdMul nests (.plain b) (.plain c))) = [b, c, a] := rfl

/-- the order matters: `R^1 * (R^2 * R^3)` -/
example : (pyProdMul true (.plain (ProxNLP.vectorSpace 1)) (.prod (pyProdMul true (.plain (ProxNLP.vectorSpace 2 : Manifold ℚ))
    (.plain (ProxNLP.vectorSpace 3))))).map (·.nx) = [2, 3, 1] := rfl

end ProxNLP
