import Verif.Spec.ManifoldCalculus
import Verif.Props.TangentBundle
import Mathlib.Analysis.Calculus.FDeriv.Pi
import Mathlib.Analysis.Calculus.FDeriv.Comp
import Mathlib.Analysis.Calculus.FDeriv.Add
import Mathlib.Data.List.OfFn

/-! Helper lemmas for C86: derivatives of maps between lists, joined blockwise. -/

set_option linter.unusedSectionVars false
open Filter Topology

namespace ProxNLP

open Spec

theorem Spec.HasListJacobian.mono {n p : ℕ} {F G : List ℝ → List ℝ → Prop} {B : ℕ → ℕ → ℝ} (h : HasListJacobian n p F B)
    (hFG : ∀ d r, d.length = n → r.length = p → F d r → G d r) : HasListJacobian n p G B := by
  obtain ⟨f, h1, h2⟩ := h
  exact ⟨f, h1.mono fun d hd => hFG _ _ (by simp) (by simp) hd, h2⟩

theorem Spec.HasListJacobian.congr {n p : ℕ} {F : List ℝ → List ℝ → Prop} {B B' : ℕ → ℕ → ℝ} (h : HasListJacobian n p F B)
    (hB : ∀ i j, i < p → j < n → B i j = B' i j) : HasListJacobian n p F B' := by
  obtain ⟨f, h1, h2⟩ := h
  refine ⟨f, h1, ?_⟩
  have : (Matrix.of fun (i : Fin p) (j : Fin n) => B i j) = Matrix.of fun (i : Fin p) (j : Fin n) => B' i j := by
    ext i j; exact hB i j i.2 j.2
  rwa [← this]

/-- restriction to the first coordinates -/
def headProj (n1 n2 : ℕ) : (Fin (n1 + n2) → ℝ) →L[ℝ] (Fin n1 → ℝ) :=
  ContinuousLinearMap.pi fun i => ContinuousLinearMap.proj (Fin.castAdd n2 i)

/-- restriction to the last coordinates -/
def tailProj (n1 n2 : ℕ) : (Fin (n1 + n2) → ℝ) →L[ℝ] (Fin n2 → ℝ) :=
  ContinuousLinearMap.pi fun i => ContinuousLinearMap.proj (Fin.natAdd n1 i)

/-- two maps side by side -/
theorem Spec.HasListJacobian.append {n1 n2 p1 p2 : ℕ} {F1 F2 : List ℝ → List ℝ → Prop} {B1 B2 : ℕ → ℕ → ℝ}
    (h1 : HasListJacobian n1 p1 F1 B1) (h2 : HasListJacobian n2 p2 F2 B2) :
    HasListJacobian (n1 + n2) (p1 + p2)
      (fun d r => ∃ d1 d2 r1 r2, d1.length = n1 ∧ d2.length = n2 ∧ r1.length = p1 ∧ r2.length = p2 ∧ F1 d1 r1 ∧ F2 d2 r2 ∧
        d = d1 ++ d2 ∧ r = r1 ++ r2)
      (fun i j => if i < p1 ∧ j < n1 then B1 i j else if p1 ≤ i ∧ n1 ≤ j then B2 (i - p1) (j - n1) else 0) := by
  obtain ⟨f1, e1, j1⟩ := h1
  obtain ⟨f2, e2, j2⟩ := h2
  refine ⟨fun d => Fin.append (f1 (headProj n1 n2 d)) (f2 (tailProj n1 n2 d)), ?_, ?_⟩
  · have c1 : Tendsto (headProj n1 n2) (𝓝 0) (𝓝 0) := by
      have := (headProj n1 n2).continuous.tendsto 0
      rwa [map_zero] at this
    have c2 : Tendsto (tailProj n1 n2) (𝓝 0) (𝓝 0) := by
      have := (tailProj n1 n2).continuous.tendsto 0
      rwa [map_zero] at this
    filter_upwards [c1.eventually e1, c2.eventually e2] with d hd1 hd2
    refine ⟨List.ofFn (headProj n1 n2 d), List.ofFn (tailProj n1 n2 d), _, _, by simp, by simp, ?_, ?_, hd1, hd2, ?_, ?_⟩
    · simp
    · simp
    · rw [← List.ofFn_fin_append]
      congr 1
      funext i
      refine Fin.addCases (fun i => ?_) (fun i => ?_) i
      · simp [headProj]
      · simp [tailProj]
    · rw [← List.ofFn_fin_append]
  · unfold HasJacobian at *
    rw [hasFDerivAt_pi']
    intro i
    have k1 : HasFDerivAt (fun d => f1 (headProj n1 n2 d)) _ (0 : Fin (n1 + n2) → ℝ) :=
      HasFDerivAt.comp (0 : Fin (n1 + n2) → ℝ) (by rw [map_zero]; exact j1) (headProj n1 n2).hasFDerivAt
    have k2 : HasFDerivAt (fun d => f2 (tailProj n1 n2 d)) _ (0 : Fin (n1 + n2) → ℝ) :=
      HasFDerivAt.comp (0 : Fin (n1 + n2) → ℝ) (by rw [map_zero]; exact j2) (tailProj n1 n2).hasFDerivAt
    refine Fin.addCases (fun i => ?_) (fun i => ?_) i
    · simp only [Fin.append_left]
      refine (hasFDerivAt_pi'.1 k1 i).congr_fderiv ?_
      ext d
      simp [Matrix.mulVec, dotProduct, Fin.sum_univ_add, headProj]
    · simp only [Fin.append_right]
      refine (hasFDerivAt_pi'.1 k2 i).congr_fderiv ?_
      ext d
      simp only [Matrix.mulVec, dotProduct, tailProj, ContinuousLinearMap.comp_apply, ContinuousLinearMap.proj_apply, ContinuousLinearMap.coe_pi',
        LinearMap.coe_toContinuousLinearMap', Matrix.mulVecLin_apply, Matrix.of_apply, Fin.sum_univ_add, Fin.val_natAdd, Fin.val_castAdd]
      rw [Finset.sum_eq_zero (s := Finset.univ) (f := fun x : Fin n1 => _ * d (Fin.castAdd n2 x)), zero_add]
      · refine Finset.sum_congr rfl fun j _ => ?_
        rw [if_neg (by omega), if_pos (by omega)]
        simp
      · intro x _
        rw [if_neg (by omega), if_neg (by omega), zero_mul]

/-- a list of maps side by side -/
theorem Spec.HasListJacobian.flatten {T : Type} (n : T → ℕ) (F : T → List ℝ → List ℝ → Prop) (B : T → ℕ → ℕ → ℝ) (ts : List T)
    (h : ∀ t ∈ ts, HasListJacobian (n t) (n t) (F t) (B t)) :
    HasListJacobian (ts.map n).sum (ts.map n).sum
      (fun d r => ∃ qs : List (List ℝ × List ℝ), List.Forall₂ (fun t q => q.1.length = n t ∧ q.2.length = n t ∧ F t q.1 q.2) ts qs ∧
        d = (qs.map (·.1)).flatten ∧ r = (qs.map (·.2)).flatten)
      (blockDiag (ts.map fun t => (n t, B t))) := by
  induction ts with
  | nil =>
    refine ⟨fun _ i => i.elim0, Eventually.of_forall fun d => ⟨[], .nil, by simp, by simp⟩, ?_⟩
    unfold HasJacobian
    rw [hasFDerivAt_pi']
    intro i
    exact i.elim0
  | cons t ts ih =>
    have := (h t List.mem_cons_self).append (ih fun t' ht' => h t' (List.mem_cons_of_mem _ ht'))
    simp only [List.map_cons, List.sum_cons]
    refine (this.mono ?_).congr ?_
    · rintro d r - - ⟨d1, d2, r1, r2, l1, -, l3, -, hF, ⟨qs, hq, rfl, rfl⟩, rfl, rfl⟩
      exact ⟨(d1, r1) :: qs, .cons ⟨l1, l3, hF⟩ hq, by simp, by simp⟩
    · intro i j _ _
      rfl

/-- addition of a constant -/
theorem Spec.HasListJacobian.affine (n : ℕ) (c : List ℝ) (hc : c.length = n) (s : ℝ) :
    HasListJacobian n n (fun d r => r = List.zipWith (fun a b => a + s * b) c d) (fun i j => if i = j then s else 0) := by
  subst hc
  refine ⟨fun d i => c.get i + s * d i, Eventually.of_forall fun d => ?_, ?_⟩
  · apply List.ext_getElem
    · simp
    · intro i h1 h2
      simp
  · unfold HasJacobian
    rw [hasFDerivAt_pi']
    intro i
    have h := (s • ContinuousLinearMap.proj (R := ℝ) (φ := fun _ : Fin c.length => ℝ) i).hasFDerivAt (x := 0)
    refine (h.const_add (c.get i)).congr_fderiv ?_
    ext d
    simp [Matrix.mulVec, dotProduct, Fin.val_inj]

end ProxNLP
