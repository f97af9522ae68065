import Verif.Lemmas.Sharing

/-!
Lemmas for C117: whenever a function can be evaluated its Jacobian can be computed.
-/

set_option linter.unusedSectionVars false
namespace ProxNLP

open Spec

variable {K : Type} [Field K]

/-! Jacobians exist. -/

lemma made_exists {makes : Stmt K → Bool} {hist : List (Stmt K)} {k : ℕ} (h : k < hist.countP makes) : ∃ pre s, Made makes hist k pre s := by
  induction hist using List.reverseRecOn with
  | nil => simp at h
  | append_singleton hist t ih =>
    by_cases hk : k < hist.countP makes
    · obtain ⟨pre, s, hm⟩ := ih hk
      exact ⟨pre, s, made_snoc t hm⟩
    · rw [List.countP_append, List.countP_singleton] at h
      by_cases ht : makes t = true
      · rw [if_pos ht] at h
        exact ⟨hist, t, [], rfl, ht, by omega⟩
      · rw [if_neg ht] at h
        omega

lemma compose_dims {hist : List (Stmt K)} {o : Objects K} (h : Objects.run {} hist = some o) {f l r : ℕ} {pre : List (Stmt K)}
    (hm : Made makesFun hist f pre (.newCompose l r)) : ∃ gf gl gr, o.funs[f]? = some gf ∧ o.funs[l]? = some gl ∧ o.funs[r]? = some gr ∧
      gl.nx = gr.nr ∧ gf.nx = gr.nx ∧ gf.nr = gl.nr := by
  obtain ⟨post, rfl, _, hc⟩ := hm
  obtain ⟨o1, o2, h1, h2, h3⟩ := run_split h
  obtain ⟨fl, fr, hl, hr, e1, e2⟩ := exec_funs h2
  have hlen := (count_run _ _ _ h1).1
  have hf : o2.funs[f]? = some (.compose fr.nx fl.nr l r) := by
    have : f = o1.funs.length := by simpa [← hc] using hlen.symm
    rw [e2, this, List.getElem?_append_right (Nat.le_refl _)]
    simp
  have h13 : o1.run (.newCompose l r :: post) = some o := by
    rw [Objects.run, h2]
    exact h3
  obtain ⟨gf, a1, a2, a3⟩ := run_fun_dims h3 hf
  obtain ⟨gl, b1, b2, b3⟩ := run_fun_dims h13 hl
  obtain ⟨gr, c1, c2, c3⟩ := run_fun_dims h13 hr
  exact ⟨gf, gl, gr, a1, b1, c1, by rw [b2, c3, e1], a2.trans c2.symm, a3.trans b3.symm⟩

lemma jac_of_maps {hist : List (Stmt K)} {o : Objects K} (h : Objects.run {} hist = some o) (hk : SizesKept hist) {f : ℕ} {x y : List K}
    (hm : Maps hist f x y) : ∀ fuel, f < fuel → ∃ J g, jacFun o.funs fuel f x = some J ∧ o.funs[f]? = some g ∧ J.cols = g.nx ∧
      J.rows.length = g.nr := by
  induction hm with
  | linear f A b x hA hb hx hr =>
    intro fuel hf
    obtain ⟨fuel, rfl⟩ : ∃ k, fuel = k + 1 := ⟨fuel - 1, by omega⟩
    obtain ⟨nx, nr, b', h1⟩ := linear_mat h hA
    have hlt : f < hist.countP makesFun := by
      have := (count_run _ _ _ h).1
      have h2 := (List.getElem?_eq_some_iff.1 h1).1
      simpa [this] using h2
    obtain ⟨pre, s, hmade⟩ := made_exists hlt
    have hmf := made_fun h hmade
    cases s <;> simp only at hmf
    case newLinear A0 b0 =>
      obtain ⟨A', b'', h2⟩ := hmf
      obtain ⟨e1, e2⟩ := hk f pre A0 b0 A hmade hA
      obtain ⟨rfl, rfl, rfl, rfl⟩ : nx = A0.cols ∧ nr = A0.rows.length ∧ A = A' ∧ b' = b'' := by simpa using h1.symm.trans h2
      refine ⟨A, _, ?_, h1, e1, e2⟩
      simp only [jacFun, h1, e1, e2, and_self, if_true]
    case newDiff t => rw [h1] at hmf; cases hmf
    case newCompose l r =>
      obtain ⟨_, _, _, _, h2⟩ := hmf
      rw [h1] at h2; cases h2
  | diff f t x pre hmade hx =>
    intro fuel hf
    obtain ⟨fuel, rfl⟩ : ∃ k, fuel = k + 1 := ⟨fuel - 1, by omega⟩
    have := made_fun h hmade
    simp only at this
    refine ⟨.one t.length, _, ?_, this, rfl, by simp [LMat.one, FunObj.nr]⟩
    simp only [jacFun, this, hx, and_self, if_true]
  | compose f l r x y z pre hmade hr _ ihr ihl =>
    intro fuel hf
    obtain ⟨fuel, rfl⟩ : ∃ k, fuel = k + 1 := ⟨fuel - 1, by omega⟩
    obtain ⟨h1, h2, nx, nr, h3⟩ := made_fun h hmade
    obtain ⟨gf, gl, gr, a1, a2, a3, a4, a5, a6⟩ := compose_dims h hmade
    obtain ⟨Jr, gr', r1, r2, r3, r4⟩ := ihr fuel (by omega)
    obtain ⟨Jl, gl', l1, l2, l3, l4⟩ := ihl fuel (by omega)
    obtain rfl := Option.some.inj (a2.symm.trans l2)
    obtain rfl := Option.some.inj (a3.symm.trans r2)
    obtain rfl := Option.some.inj (a1.symm.trans h3)
    have hv := eval_of_maps h hr fuel (by omega)
    have hmul : ∃ J, Jl.mul Jr = some J ∧ J.cols = Jr.cols ∧ J.rows.length = Jl.rows.length := by
      rw [LMat.mul, if_pos (by rw [l3, r4, a4])]
      exact ⟨_, rfl, rfl, by simp⟩
    obtain ⟨J, m1, m2, m3⟩ := hmul
    have c1 : J.cols = nx := by rw [m2, r3]; exact a5.symm
    have c2 : J.rows.length = nr := by rw [m3, l4]; exact a6.symm
    refine ⟨J, _, ?_, h3, c1, c2⟩
    simp only [jacFun, h3, hv, Option.bind_some, l1, r1, m1, c1, c2, and_self, if_true]

end ProxNLP
