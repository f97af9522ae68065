import Verif.Spec.Sharing
import Mathlib.Data.List.Induction

/-! Helper lemmas for `Props/Sharing.lean`. -/

set_option linter.unusedSectionVars false

namespace ProxNLP

open Spec

variable {K : Type} [Field K]

lemma run_append (o : Objects K) (a b : List (Stmt K)) : o.run (a ++ b) = (o.run a).bind fun o' => o'.run b := by
  induction a generalizing o with
  | nil => rfl
  | cons s a ih =>
    simp only [List.cons_append, Objects.run, Option.bind_assoc]
    congr 1
    funext o'
    exact ih o'

lemma run_split {o o' : Objects K} {pre post : List (Stmt K)} {s : Stmt K} (h : o.run (pre ++ s :: post) = some o') :
    ∃ o1 o2, o.run pre = some o1 ∧ o1.exec s = some o2 ∧ o2.run post = some o' := by
  rw [run_append, Option.bind_eq_some_iff] at h
  obtain ⟨o1, h1, h2⟩ := h
  rw [Objects.run, Option.bind_eq_some_iff] at h2
  obtain ⟨o2, h2, h3⟩ := h2
  exact ⟨o1, o2, h1, h2, h3⟩

/-- a property kept by every statement of a list is kept by the list -/
lemma run_keeps (Q : Objects K → Prop) (post : List (Stmt K)) (hs : ∀ s ∈ post, ∀ o o' : Objects K, Q o → o.exec s = some o' → Q o')
    (o o' : Objects K) (ho : Q o) (h : o.run post = some o') : Q o' := by
  induction post generalizing o with
  | nil => obtain rfl := Option.some.inj h; exact ho
  | cons s post ih =>
    rw [Objects.run, Option.bind_eq_some_iff] at h
    obtain ⟨o1, h1, h2⟩ := h
    exact ih (fun t ht => hs t (List.mem_cons_of_mem _ ht)) o1 (hs s List.mem_cons_self o o1 ho h1) h2

/-! What each statement does to each kind of object. -/

lemma exec_funs {o o' : Objects K} {s : Stmt K} (h : o.exec s = some o') :
    match s with
    | .newLinear A b => o'.funs = o.funs ++ [.linear A.cols A.rows.length A b]
    | .newDiff t => o'.funs = o.funs ++ [.diff t.length t]
    | .newCompose l r => ∃ fl fr, o.funs[l]? = some fl ∧ o.funs[r]? = some fr ∧ fl.nx = fr.nr ∧
        o'.funs = o.funs ++ [.compose fr.nx fl.nr l r]
    | .setMat f A => ∃ nx nr A0 b, o.funs[f]? = some (.linear nx nr A0 b) ∧ o'.funs = o.funs.set f (.linear nx nr A b)
    | .setOffset f b => ∃ nx nr A b0, o.funs[f]? = some (.linear nx nr A b0) ∧ o'.funs = o.funs.set f (.linear nx nr A b)
    | _ => o'.funs = o.funs := by
  cases s <;> simp only [Objects.exec] at h ⊢
  case newLinear => obtain rfl := Option.some.inj h; rfl
  case newDiff => obtain rfl := Option.some.inj h; rfl
  case newCompose l r =>
    split at h
    · rename_i fl fr h1 h2
      split_ifs at h with hc
      obtain rfl := Option.some.inj h
      exact ⟨fl, fr, h1, h2, hc, rfl⟩
    · cases h
  case setMat f A =>
    split at h
    · rename_i nx nr A0 b h1
      obtain rfl := Option.some.inj h
      exact ⟨nx, nr, A0, b, h1, rfl⟩
    · cases h
  case setOffset f A =>
    split at h
    · rename_i nx nr A0 b h1
      obtain rfl := Option.some.inj h
      exact ⟨nx, nr, A0, b, h1, rfl⟩
    · cases h
  case newSet => obtain rfl := Option.some.inj h; rfl
  all_goals
    split at h
    · obtain rfl := Option.some.inj h; rfl
    · cases h

lemma exec_sets {o o' : Objects K} {s : Stmt K} (h : o.exec s = some o') :
    match s with
    | .newSet v => o'.sets = o.sets ++ [v]
    | .setLower k v => ∃ lo hi, o.sets[k]? = some (.box lo hi) ∧ o'.sets = o.sets.set k (.box v hi)
    | .setUpper k v => ∃ lo hi, o.sets[k]? = some (.box lo hi) ∧ o'.sets = o.sets.set k (.box lo v)
    | _ => o'.sets = o.sets := by
  cases s <;> simp only [Objects.exec] at h ⊢
  case newLinear => obtain rfl := Option.some.inj h; rfl
  case newDiff => obtain rfl := Option.some.inj h; rfl
  case newSet => obtain rfl := Option.some.inj h; rfl
  case newCompose l r =>
    split at h
    · split_ifs at h with hc
      obtain rfl := Option.some.inj h
      rfl
    · cases h
  case setLower k v =>
    split at h
    · rename_i lo hi h1
      obtain rfl := Option.some.inj h
      exact ⟨lo, hi, h1, rfl⟩
    · cases h
  case setUpper k v =>
    split at h
    · rename_i lo hi h1
      obtain rfl := Option.some.inj h
      exact ⟨lo, hi, h1, rfl⟩
    · cases h
  all_goals
    split at h
    · obtain rfl := Option.some.inj h; rfl
    · cases h

lemma exec_cons {o o' : Objects K} {s : Stmt K} (h : o.exec s = some o') :
    match s with
    | .newConstraint f k => ∃ g v, o.funs[f]? = some g ∧ o.sets[k]? = some v ∧ o'.cons = o.cons ++ [⟨f, v⟩]
    | _ => o'.cons = o.cons := by
  cases s <;> simp only [Objects.exec] at h ⊢
  case newLinear => obtain rfl := Option.some.inj h; rfl
  case newDiff => obtain rfl := Option.some.inj h; rfl
  case newSet => obtain rfl := Option.some.inj h; rfl
  case newCompose l r =>
    split at h
    · split_ifs at h with hc
      obtain rfl := Option.some.inj h
      rfl
    · cases h
  case newConstraint f k =>
    split at h
    · rename_i g v h1 h2
      obtain rfl := Option.some.inj h
      exact ⟨g, v, h1, h2, rfl⟩
    · cases h
  all_goals
    split at h
    · obtain rfl := Option.some.inj h; rfl
    · cases h

lemma exec_costs {o o' : Objects K} {s : Stmt K} (h : o.exec s = some o') :
    match s with
    | .newCost f W sl c => ∃ g, o.funs[f]? = some g ∧ o'.costs = o.costs ++ [⟨f, W, sl, c⟩]
    | _ => o'.costs = o.costs := by
  cases s <;> simp only [Objects.exec] at h ⊢
  case newLinear => obtain rfl := Option.some.inj h; rfl
  case newDiff => obtain rfl := Option.some.inj h; rfl
  case newSet => obtain rfl := Option.some.inj h; rfl
  case newCompose l r =>
    split at h
    · split_ifs at h with hc
      obtain rfl := Option.some.inj h
      rfl
    · cases h
  case newCost f W sl c =>
    split at h
    · rename_i g h1
      obtain rfl := Option.some.inj h
      exact ⟨g, h1, rfl⟩
    · cases h
  all_goals
    split at h
    · obtain rfl := Option.some.inj h; rfl
    · cases h

lemma exec_probs {o o' : Objects K} {s : Stmt K} (h : o.exec s = some o') :
    match s with
    | .newProblem cost cs => ∃ q l, o.costs[cost]? = some q ∧ (cs.mapM fun c => o.cons[c]?) = some l ∧ o'.probs = o.probs ++ [⟨cost, l⟩]
    | .addConstraint p c => ∃ q v, o.probs[p]? = some q ∧ o.cons[c]? = some v ∧
        o'.probs = o.probs.set p { q with constraints := q.constraints ++ [v] }
    | .setCost p cost => ∃ q k, o.probs[p]? = some q ∧ o.costs[cost]? = some k ∧ o'.probs = o.probs.set p { q with cost := cost }
    | _ => o'.probs = o.probs := by
  cases s <;> simp only [Objects.exec] at h ⊢
  case newLinear => obtain rfl := Option.some.inj h; rfl
  case newDiff => obtain rfl := Option.some.inj h; rfl
  case newSet => obtain rfl := Option.some.inj h; rfl
  case newCompose l r =>
    split at h
    · split_ifs at h with hc
      obtain rfl := Option.some.inj h
      rfl
    · cases h
  case newProblem cost cs =>
    split at h
    · rename_i q l h1 h2
      obtain rfl := Option.some.inj h
      exact ⟨q, l, h1, h2, rfl⟩
    · cases h
  case addConstraint p c =>
    split at h
    · rename_i q v h1 h2
      obtain rfl := Option.some.inj h
      exact ⟨q, v, h1, h2, rfl⟩
    · cases h
  case setCost p c =>
    split at h
    · rename_i q v h1 h2
      obtain rfl := Option.some.inj h
      exact ⟨q, v, h1, h2, rfl⟩
    · cases h
  all_goals
    split at h
    · obtain rfl := Option.some.inj h; rfl
    · cases h

/-! Counting. -/

lemma count_exec {o o' : Objects K} {s : Stmt K} (h : o.exec s = some o') :
    o'.funs.length = o.funs.length + [s].countP makesFun ∧ o'.sets.length = o.sets.length + [s].countP makesSet ∧
    o'.cons.length = o.cons.length + [s].countP makesCon ∧ o'.costs.length = o.costs.length + [s].countP makesCost ∧
    o'.probs.length = o.probs.length + [s].countP makesProb := by
  have h1 := exec_funs h
  have h2 := exec_sets h
  have h3 := exec_cons h
  have h4 := exec_costs h
  have h5 := exec_probs h
  cases s <;> simp only [] at h1 h2 h3 h4 h5 <;>
    simp only [List.countP_cons, List.countP_nil, makesFun, makesSet, makesCon, makesCost, makesProb] <;>
    (try obtain ⟨_, _, _, _, h1⟩ := h1) <;> (try obtain ⟨_, _, _, h2⟩ := h2) <;> (try obtain ⟨_, _, _, _, h3⟩ := h3) <;>
    (try obtain ⟨_, _, h4⟩ := h4) <;> (try obtain ⟨_, _, _, _, h5⟩ := h5) <;>
    (try (have h1' := h1.2; rw [h1'])) <;> simp_all

lemma count_run (o o' : Objects K) (hist : List (Stmt K)) (h : o.run hist = some o') :
    o'.funs.length = o.funs.length + hist.countP makesFun ∧ o'.sets.length = o.sets.length + hist.countP makesSet ∧
    o'.cons.length = o.cons.length + hist.countP makesCon ∧ o'.costs.length = o.costs.length + hist.countP makesCost ∧
    o'.probs.length = o.probs.length + hist.countP makesProb := by
  induction hist generalizing o with
  | nil => obtain rfl := Option.some.inj h; simp
  | cons s hist ih =>
    rw [Objects.run, Option.bind_eq_some_iff] at h
    obtain ⟨o1, h1, h2⟩ := h
    obtain ⟨a1, a2, a3, a4, a5⟩ := count_exec h1
    obtain ⟨b1, b2, b3, b4, b5⟩ := ih o1 h2
    have hc : ∀ p : Stmt K → Bool, (s :: hist).countP p = [s].countP p + hist.countP p := fun p => by
      rw [← List.countP_append]; rfl
    simp only [hc]
    omega

/-! Old objects stay in place. -/

lemma get_append {α : Type} {l : List α} {k : ℕ} {a : α} (b : α) (h : l[k]? = some a) : (l ++ [b])[k]? = some a := by
  rw [List.getElem?_append_left (List.getElem?_eq_some_iff.1 h).1]
  exact h

/-- what a statement makes of the function `k` -/
def FunObj.after (k : ℕ) : Stmt K → FunObj K → FunObj K
  | .setMat f A, .linear nx nr A0 b => if f = k then .linear nx nr A b else .linear nx nr A0 b
  | .setOffset f b, .linear nx nr A b0 => if f = k then .linear nx nr A b else .linear nx nr A b0
  | _, g => g

lemma exec_fun_get {o o' : Objects K} {s : Stmt K} (h : o.exec s = some o') {k : ℕ} {g : FunObj K} (hk : o.funs[k]? = some g) :
    o'.funs[k]? = some (g.after k s) := by
  have h1 := exec_funs h
  cases s <;> simp only [FunObj.after] at h1 ⊢
  case newLinear => rw [h1]; exact get_append _ hk
  case newDiff => rw [h1]; exact get_append _ hk
  case newCompose =>
    obtain ⟨_, _, _, _, _, h1⟩ := h1
    rw [h1]; exact get_append _ hk
  case setMat f A =>
    obtain ⟨nx, nr, A0, b, hf, h1⟩ := h1
    rw [h1]
    by_cases hfk : f = k
    · subst hfk
      obtain rfl := Option.some.inj (hf.symm.trans hk)
      rw [List.getElem?_set_self (List.getElem?_eq_some_iff.1 hk).1]
      simp
    · rw [List.getElem?_set_ne hfk, hk]
      cases g <;> simp [hfk]
  case setOffset f b =>
    obtain ⟨nx, nr, A0, b0, hf, h1⟩ := h1
    rw [h1]
    by_cases hfk : f = k
    · subst hfk
      obtain rfl := Option.some.inj (hf.symm.trans hk)
      rw [List.getElem?_set_self (List.getElem?_eq_some_iff.1 hk).1]
      simp
    · rw [List.getElem?_set_ne hfk, hk]
      cases g <;> simp [hfk]
  all_goals rw [h1]; exact hk

/-- the dimensions of a function never change -/
lemma run_fun_dims {o o' : Objects K} {hist : List (Stmt K)} (h : o.run hist = some o') {k : ℕ} {g : FunObj K}
    (hk : o.funs[k]? = some g) : ∃ g', o'.funs[k]? = some g' ∧ g'.nx = g.nx ∧ g'.nr = g.nr := by
  refine run_keeps (fun o => ∃ g', o.funs[k]? = some g' ∧ g'.nx = g.nx ∧ g'.nr = g.nr) hist ?_ o o' ⟨g, hk, rfl, rfl⟩ h
  intro s _ o1 o2 ⟨g', hg, h1, h2⟩ he
  refine ⟨_, exec_fun_get he hg, ?_, ?_⟩
  · rw [← h1]
    unfold FunObj.after
    split <;> (try split_ifs) <;> rfl
  · rw [← h2]
    unfold FunObj.after
    split <;> (try split_ifs) <;> rfl

lemma linear_mat {hist : List (Stmt K)} {o : Objects K} (h : Objects.run {} hist = some o) {f : ℕ} {A : LMat K} (hA : LastMat hist f A) :
    ∃ nx nr b, o.funs[f]? = some (.linear nx nr A b) := by
  obtain ⟨pre, s, post, rfl, hs, hp⟩ := hA
  obtain ⟨o1, o2, h1, h2, h3⟩ := run_split h
  refine run_keeps (fun o => ∃ nx nr b, o.funs[f]? = some (.linear nx nr A b)) post ?_ o2 o ?_ h3
  · intro t ht a a' ⟨nx, nr, b, hk⟩ he
    have := exec_fun_get he hk
    cases t <;> simp only [FunObj.after] at this
    case setMat f' A' =>
      have : f' ≠ f := fun e => hp A' (e ▸ ht)
      simp_all
    case setOffset f' b' => split_ifs at this <;> exact ⟨_, _, _, this⟩
    all_goals exact ⟨_, _, _, this⟩
  · have e := exec_funs h2
    rcases hs with rfl | ⟨b, rfl, hc⟩
    · obtain ⟨nx, nr, A0, b, hf, e⟩ := e
      exact ⟨nx, nr, b, by rw [e, List.getElem?_set_self (List.getElem?_eq_some_iff.1 hf).1]⟩
    · simp only at e
      have := (count_run _ _ _ h1).1
      refine ⟨A.cols, A.rows.length, b, by rw [e, List.getElem?_append_right (by simp_all)]; simp_all⟩

lemma linear_offset {hist : List (Stmt K)} {o : Objects K} (h : Objects.run {} hist = some o) {f : ℕ} {b : List K}
    (hb : LastOffset hist f b) : ∃ nx nr A, o.funs[f]? = some (.linear nx nr A b) := by
  obtain ⟨pre, s, post, rfl, hs, hp⟩ := hb
  obtain ⟨o1, o2, h1, h2, h3⟩ := run_split h
  refine run_keeps (fun o => ∃ nx nr A, o.funs[f]? = some (.linear nx nr A b)) post ?_ o2 o ?_ h3
  · intro t ht a a' ⟨nx, nr, A, hk⟩ he
    have := exec_fun_get he hk
    cases t <;> simp only [FunObj.after] at this
    case setOffset f' A' =>
      have : f' ≠ f := fun e => hp A' (e ▸ ht)
      simp_all
    case setMat f' b' => split_ifs at this <;> exact ⟨_, _, _, this⟩
    all_goals exact ⟨_, _, _, this⟩
  · have e := exec_funs h2
    rcases hs with rfl | ⟨A, rfl, hc⟩
    · obtain ⟨nx, nr, A, b0, hf, e⟩ := e
      exact ⟨nx, nr, A, by rw [e, List.getElem?_set_self (List.getElem?_eq_some_iff.1 hf).1]⟩
    · simp only at e
      have := (count_run _ _ _ h1).1
      refine ⟨A.cols, A.rows.length, A, by rw [e, List.getElem?_append_right (by simp_all)]; simp_all⟩

/-- the object created by a statement is still there, with the parameters assigned since -/
lemma made_fun {hist : List (Stmt K)} {o : Objects K} (h : Objects.run {} hist = some o) {f : ℕ} {pre : List (Stmt K)} {s : Stmt K}
    (hm : Made makesFun hist f pre s) :
    match s with
    | .newLinear A _ => ∃ A' b, o.funs[f]? = some (.linear A.cols A.rows.length A' b)
    | .newDiff t => o.funs[f]? = some (.diff t.length t)
    | .newCompose l r => l < f ∧ r < f ∧ ∃ nx nr, o.funs[f]? = some (.compose nx nr l r)
    | _ => False := by
  obtain ⟨post, rfl, hs, hc⟩ := hm
  obtain ⟨o1, o2, h1, h2, h3⟩ := run_split h
  have e := exec_funs h2
  have hl := (count_run _ _ _ h1).1
  have hl : o1.funs.length = f := by simpa [hc] using hl
  cases s <;> simp only [makesFun, Bool.false_eq_true] at hs e ⊢
  case newLinear A b =>
    refine run_keeps (fun o => ∃ A' b, o.funs[f]? = some (.linear A.cols A.rows.length A' b)) post ?_ o2 o ⟨A, b, ?_⟩ h3
    · intro t _ a a' ⟨A', b', hk⟩ he
      have := exec_fun_get he hk
      cases t <;> simp only [FunObj.after] at this
      case setMat => split_ifs at this <;> exact ⟨_, _, this⟩
      case setOffset => split_ifs at this <;> exact ⟨_, _, this⟩
      all_goals exact ⟨_, _, this⟩
    · rw [e, List.getElem?_append_right (by omega)]; simp [hl]
  case newDiff t =>
    refine run_keeps (fun o => o.funs[f]? = some (.diff t.length t)) post ?_ o2 o ?_ h3
    · intro t _ a a' hk he
      have := exec_fun_get he hk
      cases t <;> exact this
    · rw [e, List.getElem?_append_right (by omega)]; simp [hl]
  case newCompose l r =>
    obtain ⟨fl, fr, g1, g2, -, e⟩ := e
    refine ⟨hl ▸ (List.getElem?_eq_some_iff.1 g1).1, hl ▸ (List.getElem?_eq_some_iff.1 g2).1, ?_⟩
    refine run_keeps (fun o => ∃ nx nr, o.funs[f]? = some (.compose nx nr l r)) post ?_ o2 o ⟨fr.nx, fl.nr, ?_⟩ h3
    · intro t _ a a' ⟨nx, nr, hk⟩ he
      have := exec_fun_get he hk
      cases t <;> exact ⟨nx, nr, this⟩
    · rw [e, List.getElem?_append_right (by omega)]; simp [hl]

/-- where the contents of a function come from -/
def FunFrom (hist : List (Stmt K)) (k : ℕ) : FunObj K → Prop
  | .linear _ _ A b => LastMat hist k A ∧ LastOffset hist k b
  | .diff _ t => ∃ pre, Made makesFun hist k pre (.newDiff t)
  | .compose _ _ l r => ∃ pre, Made makesFun hist k pre (.newCompose l r)

lemma made_snoc {makes : Stmt K → Bool} {hist : List (Stmt K)} {k : ℕ} {pre : List (Stmt K)} {s : Stmt K} (t : Stmt K)
    (h : Made makes hist k pre s) : Made makes (hist ++ [t]) k pre s := by
  obtain ⟨post, rfl, h⟩ := h
  exact ⟨post ++ [t], by simp, h⟩

lemma lastMat_snoc {hist : List (Stmt K)} {k : ℕ} {A : LMat K} (t : Stmt K) (ht : ∀ A', t ≠ .setMat k A') (h : LastMat hist k A) :
    LastMat (hist ++ [t]) k A := by
  obtain ⟨pre, s, post, rfl, h1, h2⟩ := h
  refine ⟨pre, s, post ++ [t], by simp, h1, fun A' hm => ?_⟩
  rcases List.mem_append.1 hm with hm | hm
  · exact h2 A' hm
  · exact ht A' (List.mem_singleton.1 hm).symm

lemma lastOffset_snoc {hist : List (Stmt K)} {k : ℕ} {b : List K} (t : Stmt K) (ht : ∀ b', t ≠ .setOffset k b') (h : LastOffset hist k b) :
    LastOffset (hist ++ [t]) k b := by
  obtain ⟨pre, s, post, rfl, h1, h2⟩ := h
  refine ⟨pre, s, post ++ [t], by simp, h1, fun A' hm => ?_⟩
  rcases List.mem_append.1 hm with hm | hm
  · exact h2 A' hm
  · exact ht A' (List.mem_singleton.1 hm).symm

lemma fun_from {hist : List (Stmt K)} {o : Objects K} (h : Objects.run {} hist = some o) {k : ℕ} {g : FunObj K}
    (hk : o.funs[k]? = some g) : FunFrom hist k g := by
  induction hist using List.reverseRecOn generalizing o g with
  | nil => obtain rfl := Option.some.inj h; simp at hk
  | append_singleton hist t ih =>
    obtain ⟨o1, o2, h1, h2, h3⟩ := run_split (post := []) h
    obtain rfl := Option.some.inj h3
    have hl := (count_run _ _ _ h1).1
    have hl : hist.countP makesFun = o1.funs.length := by simpa using hl.symm
    by_cases hlt : k < o1.funs.length
    · obtain ⟨g1, hg1⟩ : ∃ g1, o1.funs[k]? = some g1 := ⟨_, List.getElem?_eq_getElem hlt⟩
      have hf := ih h1 hg1
      have := (exec_fun_get h2 hg1).symm.trans hk
      obtain rfl := Option.some.inj this
      cases g1 with
      | linear nx nr A b =>
        cases t <;> simp only [FunObj.after]
        case setMat f A' =>
          by_cases hfk : f = k
          · subst hfk
            rw [if_pos rfl]
            exact ⟨⟨hist, _, [], rfl, .inl rfl, by simp⟩, lastOffset_snoc _ (by simp) hf.2⟩
          · rw [if_neg hfk]
            exact ⟨lastMat_snoc _ (by simp [hfk]) hf.1, lastOffset_snoc _ (by simp) hf.2⟩
        case setOffset f b' =>
          by_cases hfk : f = k
          · subst hfk
            rw [if_pos rfl]
            exact ⟨lastMat_snoc _ (by simp) hf.1, ⟨hist, _, [], rfl, .inl rfl, by simp⟩⟩
          · rw [if_neg hfk]
            exact ⟨lastMat_snoc _ (by simp) hf.1, lastOffset_snoc _ (by simp [hfk]) hf.2⟩
        all_goals exact ⟨lastMat_snoc _ (by simp) hf.1, lastOffset_snoc _ (by simp) hf.2⟩
      | diff nx t' =>
        obtain ⟨pre, hm⟩ := hf
        cases t <;> exact ⟨pre, made_snoc _ hm⟩
      | compose nx nr l r =>
        obtain ⟨pre, hm⟩ := hf
        cases t <;> exact ⟨pre, made_snoc _ hm⟩
    · have e := exec_funs h2
      have hno : o1.funs[k]? = none := List.getElem?_eq_none (Nat.le_of_not_lt hlt)
      have hk' := (List.getElem?_eq_some_iff.1 hk).1
      cases t <;> simp only at e
      case newLinear A b =>
        have hkl : k = o1.funs.length := by rw [e] at hk'; simp at hk'; omega
        subst hkl
        rw [e, List.getElem?_append_right (Nat.le_refl _)] at hk
        simp only [Nat.sub_self, List.getElem?_cons_zero, Option.some.injEq] at hk
        subst hk
        exact ⟨⟨hist, _, [], rfl, .inr ⟨b, rfl, hl⟩, by simp⟩, ⟨hist, _, [], rfl, .inr ⟨A, rfl, hl⟩, by simp⟩⟩
      case newDiff t' =>
        have hkl : k = o1.funs.length := by rw [e] at hk'; simp at hk'; omega
        subst hkl
        rw [e, List.getElem?_append_right (Nat.le_refl _)] at hk
        simp only [Nat.sub_self, List.getElem?_cons_zero, Option.some.injEq] at hk
        subst hk
        exact ⟨hist, [], rfl, rfl, hl⟩
      case newCompose l r =>
        obtain ⟨fl, fr, -, -, -, e⟩ := e
        have hkl : k = o1.funs.length := by rw [e] at hk'; simp at hk'; omega
        subst hkl
        rw [e, List.getElem?_append_right (Nat.le_refl _)] at hk
        simp only [Nat.sub_self, List.getElem?_cons_zero, Option.some.injEq] at hk
        subst hk
        exact ⟨hist, [], rfl, rfl, hl⟩
      case setMat =>
        obtain ⟨_, _, _, _, _, e⟩ := e
        rw [e] at hk'
        simp at hk'
        exact absurd hk' hlt
      case setOffset =>
        obtain ⟨_, _, _, _, _, e⟩ := e
        rw [e] at hk'
        simp at hk'
        exact absurd hk' hlt
      all_goals
        rw [e, hno] at hk
        cases hk

/-! Values. -/

lemma zip_affine (x : List K) (rows : List (List K)) (b : List K) :
    List.zipWith (· + ·) (rows.map fun r => (List.zipWith (· * ·) r x).sum) b =
      List.zipWith (fun row c => (List.zipWith (· * ·) row x).sum + c) rows b := by
  induction rows generalizing b with
  | nil => rfl
  | cons r rows ih => cases b with
    | nil => rfl
    | cons c b => simp [ih]

lemma eval_of_maps {hist : List (Stmt K)} {o : Objects K} (h : Objects.run {} hist = some o) {f : ℕ} {x y : List K}
    (hm : Maps hist f x y) : ∀ fuel, f < fuel → evalFun o.funs fuel f x = some y := by
  induction hm with
  | linear f A b x hA hb hx hr =>
    intro fuel hf
    obtain ⟨fuel, rfl⟩ : ∃ k, fuel = k + 1 := ⟨fuel - 1, by omega⟩
    obtain ⟨nx, nr, b', h1⟩ := linear_mat h hA
    obtain ⟨nx', nr', A', h2⟩ := linear_offset h hb
    obtain ⟨rfl, rfl, rfl, rfl⟩ : nx = nx' ∧ nr = nr' ∧ A = A' ∧ b' = b := by simpa using h1.symm.trans h2
    simp only [evalFun, h1, LMat.mulVec, hx, if_true, Option.bind_some, ladd, List.length_map, hr, zip_affine]
  | diff f t x pre hmade hx =>
    intro fuel hf
    obtain ⟨fuel, rfl⟩ : ∃ k, fuel = k + 1 := ⟨fuel - 1, by omega⟩
    have := made_fun h hmade
    simp only at this
    simp only [evalFun, this, lsub, hx, if_true]
  | compose f l r x y z pre hmade _ _ ihr ihl =>
    intro fuel hf
    obtain ⟨fuel, rfl⟩ : ∃ k, fuel = k + 1 := ⟨fuel - 1, by omega⟩
    obtain ⟨h1, h2, nx, nr, h3⟩ := made_fun h hmade
    simp only [evalFun, h3, ihr fuel (by omega), Option.bind_some, ihl fuel (by omega)]

lemma maps_of_eval {hist : List (Stmt K)} {o : Objects K} (h : Objects.run {} hist = some o) :
    ∀ (fuel f : ℕ) (x y : List K), evalFun o.funs fuel f x = some y → Maps hist f x y := by
  intro fuel
  induction fuel with
  | zero => intro f x y he; cases he
  | succ fuel ih =>
    intro f x y he
    rw [evalFun] at he
    split at he
    · rename_i nx nr A b hg
      obtain ⟨hA, hb⟩ := fun_from h hg
      rw [Option.bind_eq_some_iff] at he
      obtain ⟨u, h1, h2⟩ := he
      unfold LMat.mulVec at h1
      unfold ladd at h2
      split_ifs at h1 h2 with hx hr
      obtain rfl := Option.some.inj h1
      obtain rfl := Option.some.inj h2
      rw [zip_affine]
      exact .linear f A b x hA hb hx (by simpa using hr)
    · rename_i nx t hg
      obtain ⟨pre, hm⟩ := fun_from h hg
      unfold lsub at he
      split_ifs at he with hx
      obtain rfl := Option.some.inj he
      exact .diff f t x pre hm hx
    · rename_i nx nr l r hg
      obtain ⟨pre, hm⟩ := fun_from h hg
      rw [Option.bind_eq_some_iff] at he
      obtain ⟨u, h1, h2⟩ := he
      exact .compose f l r x u y pre hm (ih _ _ _ h1) (ih _ _ _ h2)
    · cases he

lemma one_identity (n : ℕ) : IsIdentity n (LMat.one n : LMat K) := by
  refine ⟨rfl, by simp [LMat.one], fun i j hi hj => ?_⟩
  simp [LMat.one, hi, hj]

lemma mul_product {L R J : LMat K} (h : L.mul R = some J) : IsProduct L R J := by
  unfold LMat.mul at h
  split_ifs at h with hc
  obtain rfl := Option.some.inj h
  refine ⟨hc, rfl, by simp, fun i row hi =>
    ⟨(List.range R.cols).map fun j => (List.zipWith (fun a r => a * r.getD j 0) row R.rows).sum, by simp [hi], by simp, fun j hj => ?_⟩⟩
  simp [hj]

lemma derives_of_jac {hist : List (Stmt K)} {o : Objects K} (h : Objects.run {} hist = some o) :
    ∀ (fuel f : ℕ) (x : List K) (J : LMat K), jacFun o.funs fuel f x = some J → Derives hist f x J := by
  intro fuel
  induction fuel with
  | zero => intro f x J he; cases he
  | succ fuel ih =>
    intro f x J he
    rw [jacFun] at he
    split at he
    · rename_i nx nr A b hg
      split_ifs at he
      obtain rfl := Option.some.inj he
      exact .linear f A x (fun_from h hg).1
    · rename_i nx t hg
      obtain ⟨pre, hm⟩ := fun_from h hg
      split_ifs at he with hx
      obtain rfl := Option.some.inj he
      exact .diff f t x _ pre hm (hx.2 ▸ one_identity _)
    · rename_i nx nr l r hg
      obtain ⟨pre, hm⟩ := fun_from h hg
      simp only [Option.bind_eq_some_iff] at he
      obtain ⟨y, h1, L, h2, R, h3, J', h4, h5⟩ := he
      split_ifs at h5
      obtain rfl := Option.some.inj h5
      exact .compose f l r x y L R _ pre hm (maps_of_eval h _ _ _ _ h1) (ih _ _ _ h2) (ih _ _ _ h3) (mul_product h4)
    · cases he

/-! Sets. -/

/-- what a statement makes of the set `k` -/
def UserSet.after (k : ℕ) : Stmt K → UserSet K → UserSet K
  | .setLower s v, .box lo hi => if s = k then .box v hi else .box lo hi
  | .setUpper s v, .box lo hi => if s = k then .box lo v else .box lo hi
  | _, g => g

lemma exec_set_get {o o' : Objects K} {s : Stmt K} (h : o.exec s = some o') {k : ℕ} {g : UserSet K} (hk : o.sets[k]? = some g) :
    o'.sets[k]? = some (g.after k s) := by
  have h1 := exec_sets h
  cases s <;> simp only [UserSet.after] at h1 ⊢
  case newSet => rw [h1]; exact get_append _ hk
  case setLower f A =>
    obtain ⟨lo, hi, hf, h1⟩ := h1
    rw [h1]
    by_cases hfk : f = k
    · subst hfk
      obtain rfl := Option.some.inj (hf.symm.trans hk)
      rw [List.getElem?_set_self (List.getElem?_eq_some_iff.1 hk).1]
      simp
    · rw [List.getElem?_set_ne hfk, hk]
      cases g <;> simp [hfk]
  case setUpper f b =>
    obtain ⟨lo, hi, hf, h1⟩ := h1
    rw [h1]
    by_cases hfk : f = k
    · subst hfk
      obtain rfl := Option.some.inj (hf.symm.trans hk)
      rw [List.getElem?_set_self (List.getElem?_eq_some_iff.1 hk).1]
      simp
    · rw [List.getElem?_set_ne hfk, hk]
      cases g <;> simp [hfk]
  all_goals rw [h1]; exact hk

lemma box_lower {hist : List (Stmt K)} {o : Objects K} (h : Objects.run {} hist = some o) {f : ℕ} {v : List K} (hA : LastLower hist f v) :
    ∃ u, o.sets[f]? = some (.box v u) := by
  obtain ⟨pre, s, post, rfl, hs, hp⟩ := hA
  obtain ⟨o1, o2, h1, h2, h3⟩ := run_split h
  refine run_keeps (fun o => ∃ u, o.sets[f]? = some (.box v u)) post ?_ o2 o ?_ h3
  · intro t ht a a' ⟨u, hk⟩ he
    have := exec_set_get he hk
    cases t <;> simp only [UserSet.after] at this
    case setLower f' A' =>
      have : f' ≠ f := fun e => hp A' (e ▸ ht)
      simp_all
    case setUpper f' b' => split_ifs at this <;> exact ⟨_, this⟩
    all_goals exact ⟨_, this⟩
  · have e := exec_sets h2
    rcases hs with rfl | ⟨b, rfl, hc⟩
    · obtain ⟨lo, hi, hf, e⟩ := e
      exact ⟨hi, by rw [e, List.getElem?_set_self (List.getElem?_eq_some_iff.1 hf).1]⟩
    · simp only at e
      have := (count_run _ _ _ h1).2.1
      refine ⟨b, by rw [e, List.getElem?_append_right (by simp_all)]; simp_all⟩

lemma box_upper {hist : List (Stmt K)} {o : Objects K} (h : Objects.run {} hist = some o) {f : ℕ} {v : List K} (hA : LastUpper hist f v) :
    ∃ u, o.sets[f]? = some (.box u v) := by
  obtain ⟨pre, s, post, rfl, hs, hp⟩ := hA
  obtain ⟨o1, o2, h1, h2, h3⟩ := run_split h
  refine run_keeps (fun o => ∃ u, o.sets[f]? = some (.box u v)) post ?_ o2 o ?_ h3
  · intro t ht a a' ⟨u, hk⟩ he
    have := exec_set_get he hk
    cases t <;> simp only [UserSet.after] at this
    case setUpper f' A' =>
      have : f' ≠ f := fun e => hp A' (e ▸ ht)
      simp_all
    case setLower f' b' => split_ifs at this <;> exact ⟨_, this⟩
    all_goals exact ⟨_, this⟩
  · have e := exec_sets h2
    rcases hs with rfl | ⟨b, rfl, hc⟩
    · obtain ⟨lo, hi, hf, e⟩ := e
      exact ⟨lo, by rw [e, List.getElem?_set_self (List.getElem?_eq_some_iff.1 hf).1]⟩
    · simp only at e
      have := (count_run _ _ _ h1).2.1
      refine ⟨b, by rw [e, List.getElem?_append_right (by simp_all)]; simp_all⟩

lemma made_set {hist : List (Stmt K)} {o : Objects K} (h : Objects.run {} hist = some o) {f : ℕ} {pre : List (Stmt K)} {v : UserSet K}
    (hv : ∀ lo hi, v ≠ .box lo hi) (hm : Made makesSet hist f pre (.newSet v)) : o.sets[f]? = some v := by
  obtain ⟨post, rfl, hs, hc⟩ := hm
  obtain ⟨o1, o2, h1, h2, h3⟩ := run_split h
  have e := exec_sets h2
  have hl := (count_run _ _ _ h1).2.1
  have hl : o1.sets.length = f := by simpa [hc] using hl
  refine run_keeps (fun o => o.sets[f]? = some v) post ?_ o2 o ?_ h3
  · intro t _ a a' hk he
    have := exec_set_get he hk
    cases v with
    | box lo hi => exact absurd rfl (hv lo hi)
    | _ => cases t <;> exact this
  · simp only at e
    rw [e, List.getElem?_append_right (by omega)]; simp [hl]

lemma set_is {hist : List (Stmt K)} {o : Objects K} (h : Objects.run {} hist = some o) {s : ℕ} {v : UserSet K} (hs : SetIs hist s v) :
    o.sets[s]? = some v := by
  cases hs with
  | box lo hi hl hu =>
    obtain ⟨u, h1⟩ := box_lower h hl
    obtain ⟨l, h2⟩ := box_upper h hu
    obtain ⟨rfl, rfl⟩ : lo = l ∧ u = hi := by simpa using h1.symm.trans h2
    exact h1
  | plain v pre hv hm => exact made_set h hv hm

lemma lastLower_snoc {hist : List (Stmt K)} {k : ℕ} {A : List K} (t : Stmt K) (ht : ∀ A', t ≠ .setLower k A') (h : LastLower hist k A) :
    LastLower (hist ++ [t]) k A := by
  obtain ⟨pre, s, post, rfl, h1, h2⟩ := h
  refine ⟨pre, s, post ++ [t], by simp, h1, fun A' hm => ?_⟩
  rcases List.mem_append.1 hm with hm | hm
  · exact h2 A' hm
  · exact ht A' (List.mem_singleton.1 hm).symm

lemma lastUpper_snoc {hist : List (Stmt K)} {k : ℕ} {A : List K} (t : Stmt K) (ht : ∀ A', t ≠ .setUpper k A') (h : LastUpper hist k A) :
    LastUpper (hist ++ [t]) k A := by
  obtain ⟨pre, s, post, rfl, h1, h2⟩ := h
  refine ⟨pre, s, post ++ [t], by simp, h1, fun A' hm => ?_⟩
  rcases List.mem_append.1 hm with hm | hm
  · exact h2 A' hm
  · exact ht A' (List.mem_singleton.1 hm).symm

/-- every set has a description in the text of the program -/
lemma set_from {hist : List (Stmt K)} {o : Objects K} (h : Objects.run {} hist = some o) {k : ℕ} {g : UserSet K}
    (hk : o.sets[k]? = some g) : SetIs hist k g := by
  induction hist using List.reverseRecOn generalizing o g with
  | nil => obtain rfl := Option.some.inj h; simp at hk
  | append_singleton hist t ih =>
    obtain ⟨o1, o2, h1, h2, h3⟩ := run_split (post := []) h
    obtain rfl := Option.some.inj h3
    have hl := (count_run _ _ _ h1).2.1
    have hl : hist.countP makesSet = o1.sets.length := by simpa using hl.symm
    by_cases hlt : k < o1.sets.length
    · obtain ⟨g1, hg1⟩ : ∃ g1, o1.sets[k]? = some g1 := ⟨_, List.getElem?_eq_getElem hlt⟩
      have hf := ih h1 hg1
      have := (exec_set_get h2 hg1).symm.trans hk
      obtain rfl := Option.some.inj this
      cases hf with
      | box lo hi hlo hhi =>
        cases t <;> simp only [UserSet.after]
        case setLower f v =>
          by_cases hfk : f = k
          · subst hfk
            rw [if_pos rfl]
            exact .box _ _ ⟨hist, _, [], rfl, .inl rfl, by simp⟩ (lastUpper_snoc _ (by simp) hhi)
          · rw [if_neg hfk]
            exact .box _ _ (lastLower_snoc _ (by simp [hfk]) hlo) (lastUpper_snoc _ (by simp) hhi)
        case setUpper f v =>
          by_cases hfk : f = k
          · subst hfk
            rw [if_pos rfl]
            exact .box _ _ (lastLower_snoc _ (by simp) hlo) ⟨hist, _, [], rfl, .inl rfl, by simp⟩
          · rw [if_neg hfk]
            exact .box _ _ (lastLower_snoc _ (by simp) hlo) (lastUpper_snoc _ (by simp [hfk]) hhi)
        all_goals exact .box _ _ (lastLower_snoc _ (by simp) hlo) (lastUpper_snoc _ (by simp) hhi)
      | plain v pre hv hm =>
        cases g1 with
        | box lo hi => exact absurd rfl (hv lo hi)
        | _ => cases t <;> exact .plain _ pre hv (made_snoc _ hm)
    · have e := exec_sets h2
      have hno : o1.sets[k]? = none := List.getElem?_eq_none (Nat.le_of_not_lt hlt)
      have hk' := (List.getElem?_eq_some_iff.1 hk).1
      cases t <;> simp only at e
      case newSet v =>
        have hkl : k = o1.sets.length := by rw [e] at hk'; simp at hk'; omega
        subst hkl
        rw [e, List.getElem?_append_right (Nat.le_refl _)] at hk
        simp only [Nat.sub_self, List.getElem?_cons_zero, Option.some.injEq] at hk
        subst hk
        cases v with
        | box lo hi => exact .box _ _ ⟨hist, _, [], rfl, .inr ⟨hi, rfl, hl⟩, by simp⟩ ⟨hist, _, [], rfl, .inr ⟨lo, rfl, hl⟩, by simp⟩
        | _ => exact .plain _ hist (by simp) ⟨[], rfl, rfl, hl⟩
      case setLower =>
        obtain ⟨_, _, _, e⟩ := e
        rw [e] at hk'
        simp at hk'
        exact absurd hk' hlt
      case setUpper =>
        obtain ⟨_, _, _, e⟩ := e
        rw [e] at hk'
        simp at hk'
        exact absurd hk' hlt
      all_goals
        rw [e, hno] at hk
        cases hk

/-! Constraints, costs and problems. -/

lemma exec_con_get {o o' : Objects K} {s : Stmt K} (h : o.exec s = some o') {k : ℕ} {g : ConObj K} (hk : o.cons[k]? = some g) :
    o'.cons[k]? = some g := by
  have h1 := exec_cons h
  cases s <;> simp only at h1
  case newConstraint =>
    obtain ⟨_, _, _, _, h1⟩ := h1
    rw [h1]; exact get_append _ hk
  all_goals rw [h1]; exact hk

lemma run_con_get {o o' : Objects K} {hist : List (Stmt K)} (h : o.run hist = some o') {k : ℕ} {g : ConObj K} (hk : o.cons[k]? = some g) :
    o'.cons[k]? = some g :=
  run_keeps (fun o => o.cons[k]? = some g) hist (fun _ _ _ _ hq he => exec_con_get he hq) o o' hk h

lemma exec_cost_get {o o' : Objects K} {s : Stmt K} (h : o.exec s = some o') {k : ℕ} {g : UserCost K} (hk : o.costs[k]? = some g) :
    o'.costs[k]? = some g := by
  have h1 := exec_costs h
  cases s <;> simp only at h1
  case newCost =>
    obtain ⟨_, _, h1⟩ := h1
    rw [h1]; exact get_append _ hk
  all_goals rw [h1]; exact hk

lemma made_cost {hist : List (Stmt K)} {o : Objects K} (h : Objects.run {} hist = some o) {k f : ℕ} {W : LMat K} {sl : List K} {c : K}
    {pre : List (Stmt K)} (hm : Made makesCost hist k pre (.newCost f W sl c)) : o.costs[k]? = some ⟨f, W, sl, c⟩ := by
  obtain ⟨post, rfl, -, hc⟩ := hm
  obtain ⟨o1, o2, h1, h2, h3⟩ := run_split h
  obtain ⟨_, _, e⟩ := exec_costs h2
  have hl := (count_run _ _ _ h1).2.2.2.1
  have hl : o1.costs.length = k := by simpa [hc] using hl
  refine run_keeps (fun o => o.costs[k]? = some ⟨f, W, sl, c⟩) post (fun _ _ _ _ hq he => exec_cost_get he hq) o2 o ?_ h3
  rw [e, List.getElem?_append_right (by omega)]; simp [hl]

lemma made_con {hist : List (Stmt K)} {o : Objects K} (h : Objects.run {} hist = some o) {k f s : ℕ} {v : UserSet K}
    {pre : List (Stmt K)} (hm : Made makesCon hist k pre (.newConstraint f s)) (hv : SetIs pre s v) : o.cons[k]? = some ⟨f, v⟩ := by
  obtain ⟨post, rfl, -, hc⟩ := hm
  obtain ⟨o1, o2, h1, h2, h3⟩ := run_split h
  obtain ⟨_, w, _, hw, e⟩ := exec_cons h2
  obtain rfl := Option.some.inj (hw.symm.trans (set_is h1 hv))
  have hl := (count_run _ _ _ h1).2.2.1
  have hl : o1.cons.length = k := by simpa [hc] using hl
  refine run_con_get h3 ?_
  rw [e, List.getElem?_append_right (by omega)]; simp [hl]

lemma made_con_from {hist : List (Stmt K)} {o : Objects K} (h : Objects.run {} hist = some o) {k f s : ℕ}
    {pre : List (Stmt K)} (hm : Made makesCon hist k pre (.newConstraint f s)) : ∃ v, SetIs pre s v := by
  obtain ⟨post, rfl, -, hc⟩ := hm
  obtain ⟨o1, o2, h1, h2, h3⟩ := run_split h
  obtain ⟨_, w, _, hw, e⟩ := exec_cons h2
  exact ⟨w, set_from h1 hw⟩

lemma mapM_get {α β : Type} {g : α → Option β} : ∀ {l : List α} {l' : List β}, l.mapM g = some l' → l.map g = l'.map some
  | [], l', h => by
    simp only [List.mapM_nil] at h
    obtain rfl := Option.some.inj h
    rfl
  | a :: l, l', h => by
    rw [List.mapM_cons] at h
    cases ha : g a with
    | none => simp [ha] at h
    | some b =>
      cases hl : l.mapM g with
      | none => simp [ha, hl] at h
      | some bs =>
        simp [ha, hl] at h
        subst h
        simp [ha, mapM_get hl]

lemma mapM_of_map {α β : Type} {g : α → Option β} : ∀ {l : List α} {l' : List β}, l.map g = l'.map some → l.mapM g = some l'
  | [], [], _ => rfl
  | [], _ :: _, h => by simp at h
  | _ :: _, [], h => by simp at h
  | a :: l, b :: l', h => by
    simp only [List.map_cons, List.cons.injEq] at h
    rw [List.mapM_cons, h.1, mapM_of_map h.2]
    rfl

/-- what a statement makes of the problem `p` -/
lemma exec_prob_get {o o' : Objects K} {s : Stmt K} (h : o.exec s = some o') {p : ℕ} {q : ProbObj K} (hp : o.probs[p]? = some q) :
    ∃ q', o'.probs[p]? = some q' ∧ (q'.cost = match s with | .setCost p' c => if p' = p then c else q.cost | _ => q.cost) ∧
      q'.constraints.map some = q.constraints.map some ++ (added p [s]).map fun c => o.cons[c]? := by
  have h1 := exec_probs h
  cases s <;> simp only at h1 ⊢
  case newProblem =>
    obtain ⟨_, _, _, _, h1⟩ := h1
    exact ⟨q, by rw [h1]; exact get_append _ hp, rfl, by simp [added]⟩
  case addConstraint p' c =>
    obtain ⟨q0, v, hq, hv, h1⟩ := h1
    by_cases hpp : p' = p
    · subst hpp
      obtain rfl := Option.some.inj (hq.symm.trans hp)
      exact ⟨⟨q0.cost, q0.constraints ++ [v]⟩, by rw [h1, List.getElem?_set_self (List.getElem?_eq_some_iff.1 hp).1], rfl, by simp [added, hv]⟩
    · exact ⟨q, by rw [h1, List.getElem?_set_ne hpp, hp], rfl, by simp [added, hpp]⟩
  case setCost p' c =>
    obtain ⟨q0, v, hq, hv, h1⟩ := h1
    by_cases hpp : p' = p
    · subst hpp
      obtain rfl := Option.some.inj (hq.symm.trans hp)
      exact ⟨⟨c, q0.constraints⟩, by rw [h1, List.getElem?_set_self (List.getElem?_eq_some_iff.1 hp).1], by simp, by simp [added]⟩
    · exact ⟨q, by rw [h1, List.getElem?_set_ne hpp, hp], by simp [hpp], by simp [added]⟩
  all_goals exact ⟨q, by rw [h1]; exact hp, rfl, by simp [added]⟩

lemma added_append (p : ℕ) (a b : List (Stmt K)) : added p (a ++ b) = added p a ++ added p b := by simp [added]

lemma run_prob_get {hist : List (Stmt K)} {o o' : Objects K} (h : o.run hist = some o') {p : ℕ} {q : ProbObj K}
    (hp : o.probs[p]? = some q) : ∃ q', o'.probs[p]? = some q' ∧
      q'.constraints.map some = q.constraints.map some ++ (added p hist).map fun c => o'.cons[c]? := by
  induction hist generalizing o q with
  | nil => obtain rfl := Option.some.inj h; exact ⟨q, hp, by simp [added]⟩
  | cons s hist ih =>
    rw [Objects.run, Option.bind_eq_some_iff] at h
    obtain ⟨o1, h1, h2⟩ := h
    obtain ⟨q1, hq1, -, e1⟩ := exec_prob_get h1 hp
    obtain ⟨q', hq', e2⟩ := ih h2 hq1
    refine ⟨q', hq', ?_⟩
    rw [e2, e1, show s :: hist = [s] ++ hist from rfl, added_append, List.map_append, List.append_assoc]
    congr 2
    refine List.map_congr_left fun c hc => ?_
    have : ∃ v, o.cons[c]? = some v := by
      have : o.cons[c]? ∈ q1.constraints.map some := by
        rw [e1]
        exact List.mem_append_right _ (List.mem_map_of_mem hc)
      obtain ⟨v, -, hv⟩ := List.mem_map.1 this
      exact ⟨v, hv.symm⟩
    obtain ⟨v, hv⟩ := this
    rw [hv, run_con_get h2 (exec_con_get h1 hv)]

lemma prob_constraints {pre post cs : List _} {cost : ℕ} {o : Objects K}
    (h : Objects.run {} (pre ++ Stmt.newProblem cost cs :: post) = some o) : ∃ q, o.probs[pre.countP makesProb]? = some q ∧
      q.constraints.map some = (cs ++ added (pre.countP makesProb) post).map fun c => o.cons[c]? := by
  obtain ⟨o1, o2, h1, h2, h3⟩ := run_split h
  obtain ⟨_, l, _, hl, e⟩ := exec_probs h2
  have hn := (count_run _ _ _ h1).2.2.2.2
  have hn : o1.probs.length = pre.countP makesProb := by simpa using hn
  have hp : o2.probs[pre.countP makesProb]? = some ⟨cost, l⟩ := by
    rw [e, List.getElem?_append_right (by omega)]; simp [hn]
  obtain ⟨q, hq, e2⟩ := run_prob_get h3 hp
  refine ⟨q, hq, ?_⟩
  rw [e2, List.map_append]
  congr 1
  have hl' := mapM_get hl
  rw [← hl']
  refine List.map_congr_left fun c hc => ?_
  have : ∃ v, o1.cons[c]? = some v := by
    have : o1.cons[c]? ∈ l.map some := by
      rw [← hl']
      exact List.mem_map_of_mem hc
    obtain ⟨v, -, hv⟩ := List.mem_map.1 this
    exact ⟨v, hv.symm⟩
  obtain ⟨v, hv⟩ := this
  rw [hv, run_con_get h3 (exec_con_get h2 hv)]

lemma prob_cost {hist : List (Stmt K)} {o : Objects K} (h : Objects.run {} hist = some o) {p c : ℕ} (hc : LastCost hist p c) :
    ∃ q, o.probs[p]? = some q ∧ q.cost = c := by
  obtain ⟨pre, s, post, rfl, hs, hp⟩ := hc
  obtain ⟨o1, o2, h1, h2, h3⟩ := run_split h
  refine run_keeps (fun o => ∃ q, o.probs[p]? = some q ∧ q.cost = c) post ?_ o2 o ?_ h3
  · intro t ht a a' ⟨q, hq, he⟩ hx
    obtain ⟨q', hq', e, -⟩ := exec_prob_get hx hq
    refine ⟨q', hq', ?_⟩
    cases t <;> simp only at e
    case setCost p' c' =>
      have : p' ≠ p := fun e => hp c' (e ▸ ht)
      rw [e, if_neg this, he]
    all_goals rw [e, he]
  · have e := exec_probs h2
    rcases hs with rfl | ⟨cs, rfl, hcount⟩
    · obtain ⟨q, k, hq, -, e⟩ := e
      exact ⟨_, by rw [e, List.getElem?_set_self (List.getElem?_eq_some_iff.1 hq).1], rfl⟩
    · obtain ⟨_, l, _, _, e⟩ := e
      have := (count_run _ _ _ h1).2.2.2.2
      exact ⟨⟨c, l⟩, by rw [e, List.getElem?_append_right (by simp_all)]; simp_all, rfl⟩

/-! Building everything anew. -/

/-- the function `k` with the parameters `v` -/
def FunObj.withVal (v : LMat K × List K) : FunObj K → FunObj K
  | .linear nx nr _ _ => .linear nx nr v.1 v.2
  | g => g

/-- all linear functions with the parameters `val` -/
def Objects.withVals (val : ℕ → LMat K × List K) (o : Objects K) : Objects K :=
  { o with funs := o.funs.mapIdx fun k g => g.withVal (val k) }

lemma withVal_dims (v : LMat K × List K) (g : FunObj K) : (g.withVal v).nx = g.nx ∧ (g.withVal v).nr = g.nr := by
  cases g <;> exact ⟨rfl, rfl⟩

lemma mapIdx_snoc {α β : Type} (g : ℕ → α → β) (l : List α) (a : α) : (l ++ [a]).mapIdx g = l.mapIdx g ++ [g l.length a] := by
  simp [List.mapIdx_append]

lemma mapIdx_set {α β : Type} (g : ℕ → α → β) (l : List α) (k : ℕ) (a b : α) (hk : l[k]? = some b) (h : g k a = g k b) :
    (l.set k a).mapIdx g = l.mapIdx g := by
  refine List.ext_getElem? fun i => ?_
  rw [List.getElem?_mapIdx, List.getElem?_mapIdx]
  by_cases hi : k = i
  · subst hi
    rw [List.getElem?_set_self (List.getElem?_eq_some_iff.1 hk).1, hk]
    simp [h]
  · rw [List.getElem?_set_ne hi]

lemma withVals_get (val : ℕ → LMat K × List K) (o : Objects K) (k : ℕ) :
    (o.withVals val).funs[k]? = (o.funs[k]?).map fun g => g.withVal (val k) := by
  simp [Objects.withVals]

lemma anew_run (val : ℕ → LMat K × List K) (hist : List (Stmt K)) (o o' : Objects K) (h : o.run hist = some o')
    (hs : ∀ pre A0 b0 post, hist = pre ++ Stmt.newLinear A0 b0 :: post → (val (o.funs.length + pre.countP makesFun)).1.cols = A0.cols ∧
      (val (o.funs.length + pre.countP makesFun)).1.rows.length = A0.rows.length) :
    (o.withVals val).run (anew val o.funs.length hist) = some (o'.withVals val) := by
  induction hist generalizing o with
  | nil => obtain rfl := Option.some.inj h; rfl
  | cons s hist ih =>
    rw [Objects.run, Option.bind_eq_some_iff] at h
    obtain ⟨o1, h1, h2⟩ := h
    have hlen := (count_exec h1).1
    have hs' : ∀ pre A0 b0 post, hist = pre ++ Stmt.newLinear A0 b0 :: post →
        (val (o1.funs.length + pre.countP makesFun)).1.cols = A0.cols ∧
        (val (o1.funs.length + pre.countP makesFun)).1.rows.length = A0.rows.length := by
      intro pre A0 b0 post e
      have := hs (s :: pre) A0 b0 post (by rw [e]; rfl)
      have hc : (s :: pre).countP makesFun = [s].countP makesFun + pre.countP makesFun := by
        rw [← List.countP_append]; rfl
      rw [hlen, Nat.add_assoc, ← hc]
      exact this
    have IH := ih o1 h2 hs'
    -- a statement that is kept
    have keep : ∀ s', anew val o.funs.length (s :: hist) = s' :: anew val o1.funs.length hist →
        (o.withVals val).exec s' = some (o1.withVals val) →
        (o.withVals val).run (anew val o.funs.length (s :: hist)) = some (o'.withVals val) := by
      intro s' e1 e2
      rw [e1, Objects.run, e2]
      exact IH
    cases s with
    | newLinear A b =>
      obtain ⟨e1, e2⟩ := hs [] A b hist rfl
      simp only [List.countP_nil, Nat.add_zero] at e1 e2
      simp only [Objects.exec, Option.some.injEq] at h1
      subst h1
      refine keep (.newLinear (val o.funs.length).1 (val o.funs.length).2) (by simp [anew]) ?_
      simp only [Objects.exec, Objects.withVals, mapIdx_snoc, FunObj.withVal, e1, e2]
    | newDiff t =>
      simp only [Objects.exec, Option.some.injEq] at h1
      subst h1
      refine keep (.newDiff t) (by simp [anew]) ?_
      simp only [Objects.exec, Objects.withVals, mapIdx_snoc, FunObj.withVal]
    | newCompose l r =>
      simp only [Objects.exec] at h1
      split at h1
      · rename_i fl fr hl hr
        split_ifs at h1 with hc
        obtain rfl := Option.some.inj h1
        refine keep (.newCompose l r) (by simp [anew]) ?_
        simp only [Objects.exec, withVals_get, hl, hr, Option.map_some, (withVal_dims _ _).1, (withVal_dims _ _).2, hc, if_true]
        simp only [Objects.withVals, mapIdx_snoc, FunObj.withVal]
      · cases h1
    | setMat f A =>
      simp only [Objects.exec] at h1
      split at h1
      · rename_i nx nr A0 b hf
        obtain rfl := Option.some.inj h1
        simp only [anew]
        have e : ({ o with funs := o.funs.set f (.linear nx nr A b) } : Objects K).withVals val = o.withVals val := by
          simp only [Objects.withVals]
          rw [mapIdx_set (fun k g => FunObj.withVal (val k) g) _ _ (.linear nx nr A b) _ hf rfl]
        rw [e] at IH
        simpa using IH
      · cases h1
    | setOffset f b =>
      simp only [Objects.exec] at h1
      split at h1
      · rename_i nx nr A b0 hf
        obtain rfl := Option.some.inj h1
        simp only [anew]
        have e : ({ o with funs := o.funs.set f (.linear nx nr A b) } : Objects K).withVals val = o.withVals val := by
          simp only [Objects.withVals]
          rw [mapIdx_set (fun k g => FunObj.withVal (val k) g) _ _ (.linear nx nr A b) _ hf rfl]
        rw [e] at IH
        simpa using IH
      · cases h1
    | newSet v =>
      simp only [Objects.exec, Option.some.injEq] at h1
      subst h1
      exact keep (.newSet v) rfl rfl
    | setLower k v =>
      simp only [Objects.exec] at h1
      split at h1
      · rename_i lo hi hf
        obtain rfl := Option.some.inj h1
        refine keep (.setLower k v) rfl ?_
        simp only [Objects.exec, Objects.withVals, hf]
      · cases h1
    | setUpper k v =>
      simp only [Objects.exec] at h1
      split at h1
      · rename_i lo hi hf
        obtain rfl := Option.some.inj h1
        refine keep (.setUpper k v) rfl ?_
        simp only [Objects.exec, Objects.withVals, hf]
      · cases h1
    | newConstraint f k =>
      simp only [Objects.exec] at h1
      split at h1
      · rename_i g v hf hk
        obtain rfl := Option.some.inj h1
        refine keep (.newConstraint f k) rfl ?_
        have hk' : (o.withVals val).sets[k]? = some v := hk
        simp only [Objects.exec, withVals_get, hf, hk', Option.map_some]
        rfl
      · cases h1
    | newCost f W sl c =>
      simp only [Objects.exec] at h1
      split at h1
      · rename_i g hf
        obtain rfl := Option.some.inj h1
        refine keep (.newCost f W sl c) rfl ?_
        simp only [Objects.exec, withVals_get, hf, Option.map_some]
        rfl
      · cases h1
    | newProblem cost cs =>
      simp only [Objects.exec] at h1
      split at h1
      · rename_i q l hq hl
        obtain rfl := Option.some.inj h1
        refine keep (.newProblem cost cs) rfl ?_
        simp only [Objects.exec, Objects.withVals, hq, hl]
      · cases h1
    | addConstraint p c =>
      simp only [Objects.exec] at h1
      split at h1
      · rename_i q l hq hl
        obtain rfl := Option.some.inj h1
        refine keep (.addConstraint p c) rfl ?_
        simp only [Objects.exec, Objects.withVals, hq, hl]
      · cases h1
    | setCost p c =>
      simp only [Objects.exec] at h1
      split at h1
      · rename_i q l hq hl
        obtain rfl := Option.some.inj h1
        refine keep (.setCost p c) rfl ?_
        simp only [Objects.exec, Objects.withVals, hq, hl]
      · cases h1

lemma withVals_current {hist : List (Stmt K)} {o : Objects K} (h : Objects.run {} hist = some o) (val : ℕ → LMat K × List K)
    (hv : LastValues hist val) : o.withVals val = o := by
  have : o.funs.mapIdx (fun k g => g.withVal (val k)) = o.funs := by
    refine List.ext_getElem? fun k => ?_
    rw [List.getElem?_mapIdx]
    cases hk : o.funs[k]? with
    | none => rfl
    | some g =>
      rw [Option.map_some]
      cases g with
      | linear nx nr A b =>
        obtain ⟨h1, h2⟩ := fun_from h hk
        rw [FunObj.withVal, hv k A b h1 h2]
      | _ => rfl
  unfold Objects.withVals
  rw [this]

end ProxNLP
