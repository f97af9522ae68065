import Verif.Props.Transport
import Verif.Props.ManifoldCalculus
import Mathlib.Analysis.SpecialFunctions.Complex.Arg
import Mathlib.Analysis.SpecialFunctions.Complex.Log

/-! Property theorems for C89: the manifolds that wrap Pinocchio groups and configuration spaces. -/

set_option linter.unusedSectionVars false
namespace ProxNLP

open Spec

section laws
variable {K : Type} [Field K]

/-- **C89, laws**: the wrapper of a group, and the configuration space of a model, obey the manifold laws if Pinocchio's functions do. -/
theorem C89_laws (G : PinGroup K) (point : List K → Prop) (dom : List K → List K → Prop) (h : GroupLaws G point dom) :
    Lawful ⟨pinocchioLieGroup G, point, dom⟩ ∧ Joins ⟨pinocchioLieGroup G, point, dom⟩ ∧
    Lawful ⟨multibodyConfiguration G, point, dom⟩ ∧ Joins ⟨multibodyConfiguration G, point, dom⟩ := by
  have hi : ∀ x v y, (∀ out, out.length = G.nq → G.integrate x v out = .ok y) →
      IntTo (pinocchioLieGroup G) x v y ∧ IntTo (multibodyConfiguration G) x v y := fun x v y h => ⟨h, h⟩
  have hd : ∀ x y d, (∀ out, out.length = G.nv → G.difference x y out = .ok d) →
      DiffTo (pinocchioLieGroup G) x y d ∧ DiffTo (multibodyConfiguration G) x y d := fun x y d h => ⟨h, h⟩
  have key : ∀ M : Manifold K, (M = pinocchioLieGroup G ∨ M = multibodyConfiguration G) → Lawful ⟨M, point, dom⟩ ∧ Joins ⟨M, point, dom⟩ := by
    intro M hM
    have hI : M.integrate = G.integrate := by rcases hM with rfl | rfl <;> rfl
    have hD : M.difference = G.difference := by rcases hM with rfl | rfl <;> rfl
    have hP : M.interpolate = G.interpolate := by rcases hM with rfl | rfl <;> rfl
    have hN : M.neutral = .ok G.neutral := by rcases hM with rfl | rfl <;> rfl
    have hx : M.nx = G.nq := by rcases hM with rfl | rfl <;> rfl
    have hv : M.ndx = G.nv := by rcases hM with rfl | rfl <;> rfl
    refine ⟨⟨?_, ?_, ?_, ?_, ?_, ?_, ?_, ?_, ?_⟩, ?_⟩
    · intro x hp; rw [hx]; exact h.point_len x hp
    · intro x v hp; rw [hv]; exact h.dom_len x v hp
    · exact ⟨_, hN, h.neutral⟩
    · intro x v hp hl
      obtain ⟨y, h1, h2⟩ := h.integrate x v hp (hl.trans hv)
      exact ⟨y, h1, fun out ho => by rw [hI]; exact h2 out (ho.trans hx)⟩
    · intro x y hp hq
      obtain ⟨d, h1, h2, -⟩ := h.difference x y hp hq
      exact ⟨d, h1.trans hv.symm, fun out ho => by rw [hD]; exact h2 out (ho.trans hv)⟩
    · intro x hp out ho
      show M.integrate _ _ _ = _
      rw [hI, hv]; exact h.integrate_zero x out hp (ho.trans hx)
    · intro x hp out ho
      show M.difference _ _ _ = _
      rw [hD, hv]; exact h.difference_self x out hp (ho.trans hv)
    · intro x y d hp hq hd out ho
      obtain ⟨d', h1, h2, h3⟩ := h.difference x y hp hq
      have e1 := hd (List.replicate G.nv 0) (by rw [hv]; simp)
      rw [hD, h2 _ (by simp)] at e1
      cases e1
      show M.integrate _ _ _ = _
      rw [hI]; exact h3 out (ho.trans hx)
    · intro x v y hp hdm hi out ho
      have e1 := hi (List.replicate G.nq 0) (by rw [hx]; simp)
      rw [hI] at e1
      show M.difference _ _ _ = _
      rw [hD]
      exact h.difference_integrate x v y _ out hp hdm (by simp) (ho.trans hv) e1
    · intro x y hp hq
      refine ⟨fun out ho => ?_, fun out ho => ?_⟩
      · show M.interpolate _ _ _ _ = _
        rw [hP]; exact (h.interpolate x y out hp hq (ho.trans hx)).1
      · show M.interpolate _ _ _ _ = _
        rw [hP]; exact (h.interpolate x y out hp hq (ho.trans hx)).2
  exact ⟨(key _ (.inl rfl)).1, (key _ (.inl rfl)).2, (key _ (.inr rfl)).1, (key _ (.inr rfl)).2⟩

/-- **C89, phase space**: a state of a model is a configuration followed by a velocity.  The phase space obeys the manifold laws; it has
`nq + nv` coordinates and `2 nv` degrees of freedom, `integrate` moves the configuration as Pinocchio does and adds to the velocity, and
`difference` is Pinocchio's difference of the configurations followed by the difference of the velocities. -/
theorem C89_phase_space (G : PinGroup K) (point : List K → Prop) (dom : List K → List K → Prop) (h : GroupLaws G point dom) :
    Lawful ⟨multibodyPhaseSpace G, fun x => ∃ q v, point q ∧ v.length = G.nv ∧ x = q ++ v,
      fun x w => ∃ q v dq dv, point q ∧ v.length = G.nv ∧ x = q ++ v ∧ dom q dq ∧ dv.length = G.nv ∧ w = dq ++ dv⟩ ∧
    (multibodyPhaseSpace G).nx = G.nq + G.nv ∧ (multibodyPhaseSpace G).ndx = 2 * G.nv ∧
    (∀ q v dq dv, point q → v.length = G.nv → dq.length = G.nv → dv.length = G.nv → ∃ q',
      (∀ out, out.length = G.nq → G.integrate q dq out = .ok q') ∧
      IntTo (multibodyPhaseSpace G) (q ++ v) (dq ++ dv) (q' ++ List.zipWith (· + ·) v dv)) ∧
    ∀ q v q' v', point q → point q' → v.length = G.nv → v'.length = G.nv → ∃ d,
      (∀ out, out.length = G.nv → G.difference q q' out = .ok d) ∧
      DiffTo (multibodyPhaseSpace G) (q ++ v) (q' ++ v') (d ++ List.zipWith (· - ·) v' v) := by
  have hL := (C89_laws G point dom h).2.2.1
  refine ⟨C48_bundle_laws _ hL, rfl, rfl, ?_, ?_⟩
  · intro q v dq dv hq hv hdq hdv
    obtain ⟨q', hq', hi⟩ := h.integrate q dq hq hdq
    exact ⟨q', hi, bundle_intTo (multibodyConfiguration G) q v dq dv q' (h.point_len q hq) hv hdq hdv (h.point_len q' hq') hi⟩
  · intro q v q' v' hq hq' hv hv'
    obtain ⟨d, hd, hdt, -⟩ := h.difference q q' hq hq'
    exact ⟨d, hdt, bundle_diffTo (multibodyConfiguration G) q v q' v' d (h.point_len q hq) hv (h.point_len q' hq') hv' hd hdt⟩

/-- **C89, points**: `isNormalized` of a wrapped group accepts a vector that is not too long exactly if it is a point; too short vectors
are rejected without a call to Pinocchio. -/
theorem C89_is_normalized (G : PinGroup K) (point : List K → Prop) (dom : List K → List K → Prop) (h : GroupLaws G point dom) (x : List K)
    (hx : x.length ≤ G.nq) : ∃ b, (pinocchioLieGroup G).isNormalized x = .ok b ∧ (b = true ↔ point x) := by
  rcases Nat.lt_or_ge x.length G.nq with hl | hl
  · refine ⟨false, by simp [pinocchioLieGroup, hl], by simp, fun hp => ?_⟩
    have := h.point_len x hp
    omega
  · obtain ⟨b, h1, h2⟩ := h.normalized x (by omega)
    refine ⟨b, ?_, h2⟩
    simp only [pinocchioLieGroup]
    rw [if_neg (by omega), h1]

/-- **C89, transport**: if Pinocchio's transport multiplies by its `dIntegrate` then so does that of the wrappers (C88). -/
theorem C89_transport (G : PinGroup K) (x v : List K) (arg : ℤ) (ha : arg = 0 ∨ arg = 1)
    (h : ∀ J0 J, ∃ B R, G.dIntegrate x v J0 arg = .ok B ∧ G.dIntegrateTransport x v J arg = .ok R ∧
      ∀ i j, i < G.nv → R i j = ∑ k ∈ Finset.range G.nv, B i k * J k j) :
    TransportIsProduct (pinocchioLieGroup G) x v arg ∧ TransportIsProduct (multibodyConfiguration G) x v arg := by
  constructor
  · intro J0 J
    obtain ⟨B, R, h1, h2, h3⟩ := h J0 J
    refine ⟨B, R, ?_, h2, h3⟩
    rcases ha with rfl | rfl <;> simpa [pinocchioLieGroup] using h1
  · intro J0 J
    obtain ⟨B, R, h1, h2, h3⟩ := h J0 J
    refine ⟨B, R, ?_, ?_, h3⟩
    · rcases ha with rfl | rfl <;> simpa [multibodyConfiguration] using h1
    · rcases ha with rfl | rfl <;> simpa [multibodyConfiguration] using h2

/-- **C89 is false of invalid argument positions**: where a vector space throws (`C43_jdifference_rejects`), the wrappers return with the
output matrix untouched.  The versions for Python allocate that matrix without initialising it, so they return what was in the memory. -/
theorem C89_bad_position_false (G : PinGroup K) (mem : ℕ → ℕ → K) (x y : List K) (arg : ℤ) (h0 : arg ≠ 0) (h1 : arg ≠ 1) :
    pyJdifference (pinocchioLieGroup G) mem x y arg = .ok mem ∧ pyJintegrate (pinocchioLieGroup G) mem x y arg = .ok mem ∧
    pyJdifference (multibodyConfiguration G) mem x y arg = .ok mem ∧ pyJintegrate (multibodyConfiguration G) mem x y arg = .ok mem := by
  simp [pyJdifference, pyJintegrate, pinocchioLieGroup, multibodyConfiguration, h0, h1]

end laws

/-- **C89, Jacobians**: the wrapped Jacobians are derivatives, with respect to the argument asked for, wherever Pinocchio's are. -/
theorem C89_jacobians (G : PinGroup ℝ) (x y : List ℝ) (arg : ℤ) (ha : arg = 0 ∨ arg = 1) :
    (PinTrueDDifference G x y arg → TrueJdifference (pinocchioLieGroup G) x y arg ∧ TrueJdifference (multibodyConfiguration G) x y arg) ∧
    (PinTrueDIntegrate G x y arg → TrueJintegrate (pinocchioLieGroup G) x y arg ∧ TrueJintegrate (multibodyConfiguration G) x y arg) := by
  refine ⟨fun h => ⟨fun J => ?_, fun J => ?_⟩, fun h => ⟨fun J => ?_, fun J => ?_⟩⟩ <;> obtain ⟨B, h1, h2⟩ := h J <;>
    refine ⟨B, ?_, h2⟩ <;> rcases ha with rfl | rfl <;> simpa [pinocchioLieGroup, multibodyConfiguration] using h1

/-! ### SO(2) -/

namespace Demo

/-- The rotations of the plane as Pinocchio has them (`SpecialOrthogonalOperationTpl<2>`, written from its documentation): a rotation by
`θ` is the vector `(cos θ, sin θ)`, a tangent vector an angle. -/
noncomputable def so2 : PinGroup ℝ where
  nq := 2
  nv := 1
  neutral := [1, 0]
  isNormalized x := match x with
    | [c, s] => .ok (decide (c ^ 2 + s ^ 2 = 1))
    | _ => .error .undefined
  integrate x v out := match x, v with
    | [c, s], [w] => if out.length = 2 then .ok [c * Real.cos w - s * Real.sin w, s * Real.cos w + c * Real.sin w] else .error .undefined
    | _, _ => .error .undefined
  difference x y out := match x, y with
    | [c, s], [c', s'] => if out.length = 1 then .ok [Complex.arg ⟨c * c' + s * s', c * s' - s * c'⟩] else .error .undefined
    | _, _ => .error .undefined
  interpolate x y u out :=
    if u = 0 then .ok x else if u = 1 then .ok y else match x, y with
    | [c, s], [c', s'] =>
      let w := u * Complex.arg ⟨c * c' + s * s', c * s' - s * c'⟩
      if out.length = 2 then .ok [c * Real.cos w - s * Real.sin w, s * Real.cos w + c * Real.sin w] else .error .undefined
    | _, _ => .error .undefined
  dIntegrate _ _ _ arg := if arg = 0 ∨ arg = 1 then .ok fun _ _ => 1 else .error .undefined
  dIntegrateTransport _ _ J arg := if arg = 0 ∨ arg = 1 then .ok J else .error .undefined
  dDifference _ _ _ arg := if arg = 0 then .ok fun _ _ => -1 else if arg = 1 then .ok fun _ _ => 1 else .error .undefined

/-- unit vectors of the plane -/
def onCircle (x : List ℝ) : Prop := ∃ t : ℝ, x = [Real.cos t, Real.sin t]

/-- angles of at most half a turn -/
def halfTurn (_ v : List ℝ) : Prop := ∃ w : ℝ, v = [w] ∧ -Real.pi < w ∧ w ≤ Real.pi

theorem so2_int (t w : ℝ) (out : List ℝ) (ho : out.length = 2) :
    so2.integrate [Real.cos t, Real.sin t] [w] out = .ok [Real.cos (t + w), Real.sin (t + w)] := by
  simp only [so2, ho, if_true]
  rw [Real.cos_add, Real.sin_add, add_comm (Real.sin t * Real.cos w)]

theorem so2_arg (t t' : ℝ) : Complex.arg ⟨Real.cos t * Real.cos t' + Real.sin t * Real.sin t', Real.cos t * Real.sin t' - Real.sin t * Real.cos t'⟩ =
    Complex.arg (Complex.exp ((t' - t : ℝ) * Complex.I)) := by
  congr 1
  apply Complex.ext
  · rw [Complex.exp_ofReal_mul_I_re, Real.cos_sub]; ring
  · rw [Complex.exp_ofReal_mul_I_im, Real.sin_sub]; ring

theorem so2_diff (t t' : ℝ) (out : List ℝ) (ho : out.length = 1) :
    so2.difference [Real.cos t, Real.sin t] [Real.cos t', Real.sin t'] out = .ok [Complex.arg (Complex.exp ((t' - t : ℝ) * Complex.I))] := by
  simp only [so2, ho, if_true, so2_arg]

theorem arg_exp_self (w : ℝ) (h1 : -Real.pi < w) (h2 : w ≤ Real.pi) : Complex.arg (Complex.exp ((w : ℝ) * Complex.I)) = w := by
  rw [Complex.exp_mul_I]
  exact Complex.arg_cos_add_sin_mul_I ⟨h1, h2⟩

theorem cos_sin_arg (w : ℝ) : Real.cos (Complex.arg (Complex.exp ((w : ℝ) * Complex.I))) = Real.cos w ∧
    Real.sin (Complex.arg (Complex.exp ((w : ℝ) * Complex.I))) = Real.sin w := by
  have hn : ‖Complex.exp ((w : ℝ) * Complex.I)‖ = 1 := Complex.norm_exp_ofReal_mul_I w
  constructor
  · rw [Complex.cos_arg (Complex.exp_ne_zero _), hn, div_one, Complex.exp_ofReal_mul_I_re]
  · rw [Complex.sin_arg, hn, div_one, Complex.exp_ofReal_mul_I_im]

end Demo

open Demo

/-- The rotations of the plane meet the hypotheses of C89. -/
theorem so2_laws : GroupLaws so2 onCircle halfTurn where
  point_len := by rintro x ⟨t, rfl⟩; rfl
  dom_len := by rintro x v ⟨w, rfl, -⟩; rfl
  neutral := ⟨0, by simp [so2]⟩
  normalized := by
    intro x hx
    match x, hx with
    | [c, s], _ =>
      refine ⟨_, rfl, ?_⟩
      simp only [decide_eq_true_eq]
      constructor
      · intro h
        refine ⟨Complex.arg ⟨c, s⟩, ?_⟩
        have hz : ‖(⟨c, s⟩ : ℂ)‖ = 1 := by
          rw [Complex.norm_def, Complex.normSq_mk, ← pow_two, ← pow_two, h, Real.sqrt_one]
        have hz' : (⟨c, s⟩ : ℂ) ≠ 0 := by
          intro h0; rw [h0, norm_zero] at hz; exact zero_ne_one hz
        rw [Complex.cos_arg hz', Complex.sin_arg, hz, div_one, div_one]
      · rintro ⟨t, ht⟩
        simp only [List.cons.injEq, and_true] at ht
        rw [ht.1, ht.2, add_comm, Real.sin_sq_add_cos_sq]
  integrate := by
    rintro x v ⟨t, rfl⟩ hv
    match v, hv with
    | [w], _ => exact ⟨_, ⟨t + w, rfl⟩, fun out ho => so2_int t w out ho⟩
  difference := by
    rintro x y ⟨t, rfl⟩ ⟨t', rfl⟩
    refine ⟨_, rfl, fun out ho => so2_diff t t' out ho, fun out ho => ?_⟩
    rw [so2_int t _ out ho]
    obtain ⟨h1, h2⟩ := cos_sin_arg (t' - t)
    rw [Real.cos_add, Real.sin_add, h1, h2, ← Real.cos_add, ← Real.sin_add, add_sub_cancel]
  integrate_zero := by
    rintro x out ⟨t, rfl⟩ ho
    have := so2_int t 0 out ho
    rwa [add_zero] at this
  difference_self := by
    rintro x out ⟨t, rfl⟩ ho
    have := so2_diff t t out ho
    rw [sub_self, arg_exp_self 0 (by linarith [Real.pi_pos]) Real.pi_pos.le] at this
    exact this
  difference_integrate := by
    rintro x v y out out' ⟨t, rfl⟩ ⟨w, rfl, h1, h2⟩ ho ho' h
    rw [so2_int t w out ho] at h
    cases h
    rw [so2_diff t (t + w) out' ho', add_sub_cancel_left, arg_exp_self w h1 h2]
  interpolate := by
    intro x y out _ _ _
    simp [so2]

/-- the angle of `e^{i(a + s d)}` for small `d` -/
theorem so2_angle_near (a s : ℝ) (ha : Complex.arg (Complex.exp ((a : ℝ) * Complex.I)) ≠ Real.pi) :
    ∀ᶠ d : ℝ in nhds 0, Complex.arg (Complex.exp (((a + s * d : ℝ)) * Complex.I)) = Complex.arg (Complex.exp ((a : ℝ) * Complex.I)) + s * d := by
  set w := Complex.arg (Complex.exp ((a : ℝ) * Complex.I)) with hw
  have h1 : -Real.pi < w := Complex.neg_pi_lt_arg _
  have h2 : w < Real.pi := lt_of_le_of_ne (Complex.arg_le_pi _) ha
  have hc : Filter.Tendsto (fun d : ℝ => w + s * d) (nhds 0) (nhds w) := by
    have : Continuous fun d : ℝ => w + s * d := by fun_prop
    simpa using this.tendsto 0
  filter_upwards [hc.eventually (lt_mem_nhds h1), hc.eventually (gt_mem_nhds h2)] with d hd1 hd2
  have he : Complex.exp (((a + s * d : ℝ)) * Complex.I) = Complex.exp (((w + s * d : ℝ)) * Complex.I) := by
    obtain ⟨e1, e2⟩ := cos_sin_arg a
    apply Complex.ext
    · rw [Complex.exp_ofReal_mul_I_re, Complex.exp_ofReal_mul_I_re, Real.cos_add, Real.cos_add, hw, e1, e2]
    · rw [Complex.exp_ofReal_mul_I_im, Complex.exp_ofReal_mul_I_im, Real.sin_add, Real.sin_add, hw, e1, e2]
  rw [he, arg_exp_self _ hd1 hd2.le]

/-- a map of one variable given near zero by `w + s d` -/
theorem listJacobian_one (F : List ℝ → List ℝ → Prop) (w s : ℝ) (h : ∀ᶠ d : ℝ in nhds 0, F [d] [w + s * d]) :
    HasListJacobian 1 1 F fun _ _ => s := by
  refine ⟨fun d _ => w + s * d 0, ?_, ?_⟩
  · have hc : Filter.Tendsto (fun d : Fin 1 → ℝ => d 0) (nhds 0) (nhds 0) := (continuous_apply 0).tendsto _
    filter_upwards [hc.eventually h] with d hd
    simpa [List.ofFn_succ] using hd
  · unfold HasJacobian
    rw [hasFDerivAt_pi']
    intro i
    have k := (s • ContinuousLinearMap.proj (R := ℝ) (φ := fun _ : Fin 1 => ℝ) 0).hasFDerivAt (x := 0)
    refine (k.const_add w).congr_fderiv ?_
    ext d
    simp [Matrix.mulVec, dotProduct]

/-- The Jacobians of the rotations of the plane are derivatives: `integrate` everywhere, `difference` unless the two rotations are
opposite. -/
theorem so2_jacobians (t t' w : ℝ) (arg : ℤ) (ha : arg = 0 ∨ arg = 1) :
    (Complex.arg (Complex.exp ((t' - t : ℝ) * Complex.I)) ≠ Real.pi →
      PinTrueDDifference so2 [Real.cos t, Real.sin t] [Real.cos t', Real.sin t'] arg) ∧
    PinTrueDIntegrate so2 [Real.cos t, Real.sin t] [w] arg := by
  constructor
  · intro hne J
    rcases ha with rfl | rfl
    · refine ⟨fun _ _ => -1, by simp [so2], listJacobian_one _ (Complex.arg (Complex.exp ((t' - t : ℝ) * Complex.I))) (-1) ?_⟩
      filter_upwards [so2_angle_near (t' - t) (-1) hne] with d hd
      refine Or.inl ⟨rfl, _, fun out ho => so2_int t d out ho, fun out ho => ?_⟩
      rw [so2_diff (t + d) t' out ho, ← hd]
      congr 6
      ring
    · refine ⟨fun _ _ => 1, by simp [so2], listJacobian_one _ (Complex.arg (Complex.exp ((t' - t : ℝ) * Complex.I))) 1 ?_⟩
      filter_upwards [so2_angle_near (t' - t) 1 hne] with d hd
      refine Or.inr ⟨rfl, _, fun out ho => so2_int t' d out ho, fun out ho => ?_⟩
      rw [so2_diff t (t' + d) out ho, ← hd]
      congr 6
      ring
  · intro J
    have h0 : Complex.arg (Complex.exp (((0 : ℝ)) * Complex.I)) = 0 := arg_exp_self 0 (by linarith [Real.pi_pos]) Real.pi_pos.le
    have hnear := so2_angle_near 0 1 (by rw [h0]; exact Real.pi_pos.ne)
    refine ⟨fun _ _ => 1, by rcases ha with rfl | rfl <;> simp [so2], listJacobian_one _ 0 1 ?_⟩
    filter_upwards [hnear] with d hd
    rw [h0] at hd
    rcases ha with rfl | rfl
    · refine Or.inl ⟨rfl, _, _, _, fun out ho => so2_int t w out ho, fun out ho => so2_int t d out ho,
        fun out ho => so2_int (t + d) w out ho, fun out ho => ?_⟩
      rw [so2_diff _ _ out ho, ← hd]
      congr 6
      ring
    · refine Or.inr ⟨rfl, _, _, fun out ho => so2_int t w out ho, fun out ho => so2_int t (w + d) out ho, fun out ho => ?_⟩
      rw [so2_diff _ _ out ho, ← hd]
      congr 6
      ring

/-- the rotations of the plane as a space -/
noncomputable def so2Space : Space ℝ := ⟨pinocchioLieGroup so2, onCircle, halfTurn⟩

/-- The phase space of a planar pendulum: a quarter turn from rest at unit speed. -/
example : ∃ q', (∀ out, out.length = 2 → so2.integrate [Real.cos 0, Real.sin 0] [Real.pi / 2] out = .ok q') ∧
    IntTo (multibodyPhaseSpace so2) ([Real.cos 0, Real.sin 0] ++ [1]) ([Real.pi / 2] ++ [3]) (q' ++ List.zipWith (· + ·) [1] [3]) :=
  (C89_phase_space so2 onCircle halfTurn so2_laws).2.2.2.1 _ _ _ _ ⟨0, rfl⟩ rfl rfl rfl

/-- C89 is not vacuous: the tangent bundle of the rotations of the plane (`TSO2` in Python) obeys the manifold laws, ... -/
example : Lawful (bundle so2Space) := C48_bundle_laws _ (C89_laws so2 onCircle halfTurn so2_laws).1

/-- ... its Jacobians at a quarter turn are derivatives, and transport multiplies by them. -/
example (t t' : ℝ) (arg : ℤ) (ha : arg = 0 ∨ arg = 1) :
    TrueJdifference (bundle so2Space).M ([Real.cos 0, Real.sin 0] ++ [t]) ([Real.cos (Real.pi / 2), Real.sin (Real.pi / 2)] ++ [t']) arg ∧
    TrueJintegrate (bundle so2Space).M ([Real.cos 0, Real.sin 0] ++ [t]) ([1] ++ [t']) arg ∧
    TransportIsProduct (bundle so2Space).M ([Real.cos 0, Real.sin 0] ++ [t]) ([1] ++ [t']) arg := by
  have hL := (C89_laws so2 onCircle halfTurn so2_laws).1
  have hp : so2Space.valid [Real.cos 0, Real.sin 0] := ⟨0, rfl⟩
  refine ⟨(C86_bundle so2Space hL arg ha _ _ _ _ hp rfl rfl).1 ⟨_, rfl⟩ ((C89_jacobians so2 _ _ arg ha).1 ?_).1,
    (C86_bundle so2Space hL arg ha _ _ _ _ hp rfl rfl).2 rfl ((C89_jacobians so2 _ _ arg ha).2 (so2_jacobians 0 0 1 arg ha).2).1,
    C88_bundle _ _ _ _ _ arg rfl rfl (C89_transport so2 _ _ arg ha ?_).1⟩
  · refine (so2_jacobians 0 (Real.pi / 2) 0 arg ha).1 ?_
    rw [sub_zero, arg_exp_self _ (by linarith [Real.pi_pos]) (by linarith [Real.pi_pos])]
    linarith [Real.pi_pos]
  · intro J0 J
    refine ⟨fun _ _ => 1, J, by rcases ha with rfl | rfl <;> simp [so2], by rcases ha with rfl | rfl <;> simp [so2], fun i j hi => ?_⟩
    have : i = 0 := Nat.lt_one_iff.1 hi
    subst this
    show J 0 j = ∑ k ∈ Finset.range 1, 1 * J k j
    simp

end ProxNLP
