import Verif.Props.Slip
import Verif.Lemmas.DerivOf
import Mathlib.Analysis.SpecialFunctions.Sqrt
import Mathlib.Analysis.SpecialFunctions.Trigonometric.ArctanDeriv

/-!
# C90, C91: the gradients of the spring loaded inverted pendulum
-/

namespace NNL.Props

open Real Matrix NNL.Model NNL.Spec Topology

theorem jfst {n : ℕ} (i : Fin n) (w : (Fin n → ℝ) × ℝ) : HasFDerivAt (fun w : (Fin n → ℝ) × ℝ => w.1 i)
    ((ContinuousLinearMap.proj (R := ℝ) i).comp (ContinuousLinearMap.fst ℝ (Fin n → ℝ) ℝ)) w :=
  ((ContinuousLinearMap.proj (R := ℝ) i).comp (ContinuousLinearMap.fst ℝ (Fin n → ℝ) ℝ)).hasFDerivAt

/-- C90. `stance_dynamics_gradient` is the derivative of `stance_dynamics`. -/
theorem C90_stance (P : Slip) (x : Fin 5 → ℝ) (hr : x 0 ≠ 0) : IsJacobian P.stance (P.stanceGrad x) x := by
  refine jac_of fun i => ?_
  have hinv : HasFDerivAt (fun y : Fin 5 → ℝ => (y 0)⁻¹) ((-(x 0 ^ 2)⁻¹) • ContinuousLinearMap.proj (R := ℝ) (0 : Fin 5)) x :=
    (hasDerivAt_inv hr).comp_hasFDerivAt (h₂ := fun y : ℝ => y⁻¹) x (jc 0 x)
  fin_cases i
  · exact ⟨_, jc 2 x, fun v => by simp [Slip.stanceGrad, Fin.sum_univ_succ]⟩
  · exact ⟨_, jc 3 x, fun v => by simp [Slip.stanceGrad, Fin.sum_univ_succ]⟩
  · refine ⟨_, ((((jc 0 x).mul ((jc 3 x).pow 2)).sub ((jc 1 x).cos.const_mul P.g)).add
      (jdiv (((jc 0 x).const_sub P.l0).const_mul P.k) P.mass)), fun v => ?_⟩
    simp [Slip.stanceGrad, Fin.sum_univ_succ]
    ring
  · have h := (((hinv.const_mul P.g).mul (jc 1 x).sin).sub (((((jc 2 x).const_mul 2).mul (jc 3 x))).mul hinv))
    refine ⟨_, h.congr_of_eventuallyEq (Filter.Eventually.of_forall fun y => ?_), fun v => ?_⟩
    · simp [Slip.stance, div_eq_mul_inv]
    · simp [Slip.stanceGrad, Fin.sum_univ_succ]
      field_simp
      ring
  · exact ⟨_, jconst 0 x, fun v => by simp [Slip.stanceGrad, Fin.sum_univ_succ]⟩

/-- C90. `touchdown_transition_gradient` is the derivative of `touchdown_transition` with respect to the state and the leg
angle. -/
theorem C90_touchdown (P : Slip) (s : Fin 4 → ℝ) (θ : ℝ) :
    DerivOf (fun w : (Fin 4 → ℝ) × ℝ => some (P.touchdown w.1 w.2))
      (fun v => (P.touchdownGrad s θ).1 *ᵥ v.1 + v.2 • (P.touchdownGrad s θ).2) (s, θ) := by
  have hfst (i : Fin 4) : HasFDerivAt (fun w : (Fin 4 → ℝ) × ℝ => w.1 i)
      ((ContinuousLinearMap.proj (R := ℝ) i).comp (ContinuousLinearMap.fst ℝ (Fin 4 → ℝ) ℝ)) (s, θ) :=
    jfst _ _
  have hs : HasFDerivAt (fun w : (Fin 4 → ℝ) × ℝ => w.2) (ContinuousLinearMap.snd ℝ (Fin 4 → ℝ) ℝ) (s, θ) := hasFDerivAt_snd
  refine derivOf_pi (fun w => P.touchdown w.1 w.2) (Filter.Eventually.of_forall fun _ => rfl) fun i => ?_
  fin_cases i
  · exact ⟨_, hasFDerivAt_const P.l0 _, fun v => by simp [Slip.touchdownGrad, dotProduct, Fin.sum_univ_succ]⟩
  · exact ⟨_, hs, fun v => by simp [Slip.touchdownGrad, dotProduct, Fin.sum_univ_succ]⟩
  · refine ⟨_, ((hfst 2).neg.mul hs.sin).add ((hfst 3).mul hs.cos), fun v => ?_⟩
    simp [Slip.touchdownGrad, dotProduct, Fin.sum_univ_succ]
    ring
  · refine ⟨_, (((hfst 2).neg.mul hs.cos).sub ((hfst 3).mul hs.sin)).const_mul P.l0⁻¹ |>.congr_of_eventuallyEq
      (Filter.Eventually.of_forall fun y => ?_), fun v => ?_⟩
    · simp [Slip.touchdown, div_eq_inv_mul]
    · simp [Slip.touchdownGrad, dotProduct, Fin.sum_univ_succ]
      ring
  · refine ⟨_, (hfst 0).add (hs.sin.const_mul P.l0), fun v => ?_⟩
    simp [Slip.touchdownGrad, dotProduct, Fin.sum_univ_succ]
    ring

/-- C90, partial: `liftoff_transition_gradient` is the derivative of `liftoff_transition` along changes which keep the leg at
its rest length; it lacks the derivative with respect to the leg length (`C90_liftoff_column`). -/
theorem C90_liftoff_partial (P : Slip) (s : Fin 5 → ℝ) :
    IsJacobian (fun s => P.liftoff (Function.update s 0 P.l0)) (P.liftoffGrad s) s := by
  refine jac_of fun i => ?_
  fin_cases i
  · refine ⟨_, (jc 4 s).sub ((jc 1 s).sin.const_mul P.l0), fun v => ?_⟩
    simp [Slip.liftoffGrad, Fin.sum_univ_succ]
    ring
  · refine ⟨_, (jc 1 s).cos.const_mul P.l0, fun v => ?_⟩
    simp [Slip.liftoffGrad, Fin.sum_univ_succ]
    ring
  · refine ⟨_, (((jc 1 s).cos.const_mul (-P.l0)).mul (jc 3 s)).sub ((jc 2 s).mul (jc 1 s).sin), fun v => ?_⟩
    simp [Slip.liftoffGrad, Fin.sum_univ_succ]
    ring
  · refine ⟨_, (((jc 1 s).sin.const_mul (-P.l0)).mul (jc 3 s)).add ((jc 2 s).mul (jc 1 s).cos), fun v => ?_⟩
    simp [Slip.liftoffGrad, Fin.sum_univ_succ]
    ring

/-- The complete derivative of `liftoff_transition`. -/
theorem liftoff_jacobian (P : Slip) (s : Fin 5 → ℝ) (h : s 0 = P.l0) : IsJacobian P.liftoff
    (P.liftoffGrad s + vecMulVec ![0, 0, -cos (s 1) * s 3, -sin (s 1) * s 3] ![1, 0, 0, 0, 0]) s := by
  refine jac_of fun i => ?_
  fin_cases i
  · refine ⟨_, (jc 4 s).sub ((jc 1 s).sin.const_mul P.l0), fun v => ?_⟩
    simp [Slip.liftoffGrad, Fin.sum_univ_succ]
    ring
  · refine ⟨_, (jc 1 s).cos.const_mul P.l0, fun v => ?_⟩
    simp [Slip.liftoffGrad, Fin.sum_univ_succ]
    ring
  · refine ⟨_, (((jc 0 s).neg.mul (jc 1 s).cos).mul (jc 3 s)).sub ((jc 2 s).mul (jc 1 s).sin), fun v => ?_⟩
    simp [Slip.liftoffGrad, Fin.sum_univ_succ, h]
    ring
  · refine ⟨_, (((jc 0 s).neg.mul (jc 1 s).sin).mul (jc 3 s)).add ((jc 2 s).mul (jc 1 s).cos), fun v => ?_⟩
    simp [Slip.liftoffGrad, Fin.sum_univ_succ, h]
    ring

/-- C90 (the code disagrees). With the leg at its rest length, `liftoff_transition_gradient` is the derivative of
`liftoff_transition` only if the leg does not turn. -/
theorem C90_liftoff_column (P : Slip) (s : Fin 5 → ℝ) (h : s 0 = P.l0) :
    IsJacobian P.liftoff (P.liftoffGrad s) s ↔ s 3 = 0 := by
  have hj := liftoff_jacobian P s h
  constructor
  · intro h1
    have := HasFDerivAt.unique h1 hj
    have e := congrArg (fun L : (Fin 5 → ℝ) →L[ℝ] (Fin 4 → ℝ) => L ![1, 0, 0, 0, 0]) this
    simp only [LinearMap.coe_toContinuousLinearMap', mulVecLin_apply] at e
    have e2 := congrFun e 2
    have e3 := congrFun e 3
    simp [Slip.liftoffGrad, Matrix.mulVec, dotProduct, Fin.sum_univ_succ] at e2 e3
    by_contra hs
    have hc := sin_sq_add_cos_sq (s 1)
    rw [e2.resolve_right hs, e3.resolve_right hs] at hc
    norm_num at hc
  · intro h3
    have : (P.liftoffGrad s + vecMulVec ![0, 0, -cos (s 1) * s 3, -sin (s 1) * s 3] ![1, 0, 0, 0, 0]) = P.liftoffGrad s := by
      have : (![0, 0, -cos (s 1) * s 3, -sin (s 1) * s 3] : Fin 4 → ℝ) = 0 := by
        ext i; fin_cases i <;> simp [h3]
      rw [this, zero_vecMulVec, add_zero]
    rwa [this] at hj

/-- C90. `liftoff_to_apex_gradient` returns the derivatives of the returned apex state and time, for an upward velocity. -/
theorem C90_liftoffToApex (P : Slip) (s : Fin 4 → ℝ) (hv : 0 < s 3) :
    ∃ G x dt t, P.liftoffToApexGrad s = some (G, x, dt, t) ∧
      DerivOf (fun s => (P.liftoffToApexGrad s).map (·.2.1)) (fun v => G *ᵥ v) s ∧
      DerivOf (fun s => (P.liftoffToApexGrad s).map (·.2.2.2)) (fun v => dt ⬝ᵥ v) s := by
  have hpos : ∀ᶠ y in 𝓝 s, ¬ (y : Fin 4 → ℝ) 3 < 0 := by
    filter_upwards [(continuous_apply (3 : Fin 4)).continuousAt.eventually (lt_mem_nhds hv)] with y hy
    exact not_lt.2 (le_of_lt hy)
  refine ⟨_, _, _, _, by rw [Slip.liftoffToApexGrad, if_neg hpos.self_of_nhds], ?_, ?_⟩
  · refine derivOf_pi (fun s => ![s 0 + s 2 * (s 3 / P.g), s 1 + s 3 ^ 2 / (2 * P.g), s 2]) ?_ fun i => ?_
    · filter_upwards [hpos] with y hy
      rw [Slip.liftoffToApexGrad, if_neg hy]
      rfl
    · fin_cases i
      · refine ⟨_, (jc 0 s).add ((jc 2 s).mul (jdiv (jc 3 s) P.g)), fun v => ?_⟩
        simp [Matrix.mulVec, dotProduct, Fin.sum_univ_succ]
        ring
      · refine ⟨_, (jc 1 s).add (jdiv ((jc 3 s).pow 2) (2 * P.g)), fun v => ?_⟩
        simp [Matrix.mulVec, dotProduct, Fin.sum_univ_succ]
        ring
      · exact ⟨_, jc 2 s, fun v => by simp [Matrix.mulVec, dotProduct, Fin.sum_univ_succ]⟩
  · refine ⟨fun s => s 3 / P.g, _, ?_, jdiv (jc 3 s) P.g, fun v => ?_⟩
    · filter_upwards [hpos] with y hy
      rw [Slip.liftoffToApexGrad, if_neg hy]
      rfl
    · simp [dotProduct, Fin.sum_univ_succ]

theorem vecMulVec_mulVec' {m n : ℕ} (a : Fin m → ℝ) (b v : Fin n → ℝ) :
    vecMulVec a b *ᵥ v = (b ⬝ᵥ v) • a := by
  ext i
  simp only [Matrix.mulVec, dotProduct, vecMulVec_apply, Pi.smul_apply, smul_eq_mul, Finset.sum_mul]
  exact Finset.sum_congr rfl fun j _ => by ring

theorem td_eval (P : Slip) (a : Fin 3 → ℝ) (θ : ℝ) (h : P.l0 * cos θ ≤ a 1) :
    ∃ G, P.apexToTouchdownGrad a θ = some G ∧ G.t = √(2 * P.g * (a 1 - P.l0 * cos θ)) / P.g ∧
      G.x = ![a 0 + a 2 * (√(2 * P.g * (a 1 - P.l0 * cos θ)) / P.g), P.l0 * cos θ, a 2,
        -P.g * (√(2 * P.g * (a 1 - P.l0 * cos θ)) / P.g)] ∧
      G.dxApex = !![1, a 2 * (√(2 / P.g) * 0.5 / √(a 1 - P.l0 * cos θ)), √(2 * P.g * (a 1 - P.l0 * cos θ)) / P.g;
        0, 0, 0; 0, 0, 1; 0, -P.g * (√(2 / P.g) * 0.5 / √(a 1 - P.l0 * cos θ)), 0] ∧
      G.dxLeg = ![a 2 * (√(2 / P.g) * P.l0 * sin θ / (2 * √(a 1 - P.l0 * cos θ))), -P.l0 * sin θ, 0,
        -P.g * (√(2 / P.g) * P.l0 * sin θ / (2 * √(a 1 - P.l0 * cos θ)))] ∧
      G.dtApex = ![0, √(2 / P.g) * 0.5 / √(a 1 - P.l0 * cos θ), 0] ∧
      G.dtLeg = √(2 / P.g) * P.l0 * sin θ / (2 * √(a 1 - P.l0 * cos θ)) := by
  have ht : P.timeToTouchdown ![a 0, a 1, a 2, 0] ⟨⊥, ⊤, 0⟩ θ = some (√(2 * P.g * (a 1 - P.l0 * cos θ)) / P.g) := by
    unfold Slip.timeToTouchdown
    simp [h]
  have hs : Stone.init ⊥ ⊤ 0 = some ⟨⊥, ⊤, 0⟩ := by simp [Stone.init]
  unfold Slip.apexToTouchdownGrad
  rw [hs]
  simp only [Option.bind_eq_bind, Option.bind_some, ht]
  exact ⟨_, rfl, rfl, rfl, rfl, rfl, rfl, rfl⟩

theorem sqrt_rate {g w : ℝ} (hg : 0 < g) (hw : 0 < w) : 1 / (2 * √(2 * g * w)) * (2 * g) / g = √(2 / g) * 0.5 / √w := by
  rw [Real.sqrt_mul (by positivity), Real.sqrt_mul (by norm_num), Real.sqrt_div (by norm_num)]
  have h2 : √2 ^ 2 = 2 := Real.sq_sqrt (by norm_num)
  have h3 : 0 < √(2 : ℝ) := Real.sqrt_pos.2 (by norm_num)
  have hg2 : 0 < √g := Real.sqrt_pos.2 hg
  have hw2 : 0 < √w := Real.sqrt_pos.2 hw
  field_simp
  linarith

theorem td_time (P : Slip) (hg : 0 < P.g) (a : Fin 3 → ℝ) (θ : ℝ) (h : P.l0 * cos θ < a 1) :
    ∃ A : (Fin 3 → ℝ) × ℝ →L[ℝ] ℝ,
      HasFDerivAt (fun w : (Fin 3 → ℝ) × ℝ => √(2 * P.g * (w.1 1 - P.l0 * cos w.2)) / P.g) A (a, θ) ∧
      ∀ v, A v = √(2 / P.g) * 0.5 / √(a 1 - P.l0 * cos θ) * v.1 1 +
        √(2 / P.g) * P.l0 * sin θ / (2 * √(a 1 - P.l0 * cos θ)) * v.2 := by
  have h1 : HasFDerivAt (fun w : (Fin 3 → ℝ) × ℝ => w.1 1)
      ((ContinuousLinearMap.proj (R := ℝ) (1 : Fin 3)).comp (ContinuousLinearMap.fst ℝ (Fin 3 → ℝ) ℝ)) (a, θ) :=
    jfst _ _
  have h2 : HasFDerivAt (fun w : (Fin 3 → ℝ) × ℝ => w.2) (ContinuousLinearMap.snd ℝ (Fin 3 → ℝ) ℝ) (a, θ) := hasFDerivAt_snd
  have hw : 0 < a 1 - P.l0 * cos θ := sub_pos.2 h
  have h3 := ((h1.sub (h2.cos.const_mul P.l0)).const_mul (2 * P.g)).sqrt (by
    show 2 * P.g * (a 1 - P.l0 * cos θ) ≠ 0
    positivity)
  refine ⟨_, (h3.const_mul P.g⁻¹).congr_of_eventuallyEq (Filter.Eventually.of_forall fun w => by simp [div_eq_inv_mul]),
    fun v => ?_⟩
  have hr := sqrt_rate hg hw
  have e : √(2 / P.g) * P.l0 * sin θ / (2 * √(a 1 - P.l0 * cos θ)) =
      √(2 / P.g) * 0.5 / √(a 1 - P.l0 * cos θ) * (P.l0 * sin θ) := by
    have : √(a 1 - P.l0 * cos θ) ≠ 0 := (Real.sqrt_pos.2 hw).ne'
    field_simp
    norm_num
    ring
  rw [e, ← hr]
  simp
  ring

/-- C90. `apex_to_touchdown_gradient` returns the derivatives of the returned state and time with respect to the apex state
and the leg angle, if the foot is above the ground at the apex. -/
theorem C90_apexToTouchdown (P : Slip) (hg : 0 < P.g) (a : Fin 3 → ℝ) (θ : ℝ) (h : P.l0 * cos θ < a 1) :
    ∃ G, P.apexToTouchdownGrad a θ = some G ∧
      DerivOf (fun w : (Fin 3 → ℝ) × ℝ => (P.apexToTouchdownGrad w.1 w.2).map (·.x))
        (fun v => G.dxApex *ᵥ v.1 + v.2 • G.dxLeg) (a, θ) ∧
      DerivOf (fun w : (Fin 3 → ℝ) × ℝ => (P.apexToTouchdownGrad w.1 w.2).map (·.t))
        (fun v => G.dtApex ⬝ᵥ v.1 + v.2 * G.dtLeg) (a, θ) := by
  obtain ⟨G, hG, g1, g2, g3, g4, g5, g6⟩ := td_eval P a θ h.le
  have hpos : ∀ᶠ w : (Fin 3 → ℝ) × ℝ in 𝓝 (a, θ), P.l0 * cos w.2 < w.1 1 := by
    have c1 : Continuous fun w : (Fin 3 → ℝ) × ℝ => P.l0 * cos w.2 := by fun_prop
    have c2 : Continuous fun w : (Fin 3 → ℝ) × ℝ => w.1 1 := by fun_prop
    exact (c1.continuousAt).eventually_lt c2.continuousAt h
  obtain ⟨A, hA, hAv⟩ := td_time P hg a θ h
  have hf (i : Fin 3) : HasFDerivAt (fun w : (Fin 3 → ℝ) × ℝ => w.1 i)
      ((ContinuousLinearMap.proj (R := ℝ) i).comp (ContinuousLinearMap.fst ℝ (Fin 3 → ℝ) ℝ)) (a, θ) :=
    jfst _ _
  have h2 : HasFDerivAt (fun w : (Fin 3 → ℝ) × ℝ => w.2) (ContinuousLinearMap.snd ℝ (Fin 3 → ℝ) ℝ) (a, θ) := hasFDerivAt_snd
  refine ⟨G, hG, ?_, ?_⟩
  · refine derivOf_pi (fun w => ![w.1 0 + w.1 2 * (√(2 * P.g * (w.1 1 - P.l0 * cos w.2)) / P.g), P.l0 * cos w.2, w.1 2,
        -P.g * (√(2 * P.g * (w.1 1 - P.l0 * cos w.2)) / P.g)]) ?_ fun i => ?_
    · filter_upwards [hpos] with w hw
      obtain ⟨G', hG', -, e, -⟩ := td_eval P w.1 w.2 hw.le
      rw [hG', Option.map_some, e]
    · rw [g3, g4]
      fin_cases i
      · refine ⟨_, (hf 0).add ((hf 2).mul hA), fun v => ?_⟩
        simp [dotProduct, Fin.sum_univ_succ, hAv]
        ring
      · refine ⟨_, h2.cos.const_mul P.l0, fun v => ?_⟩
        simp [dotProduct, Fin.sum_univ_succ]
        ring
      · exact ⟨_, hf 2, fun v => by simp [dotProduct, Fin.sum_univ_succ]⟩
      · refine ⟨_, hA.const_mul (-P.g), fun v => ?_⟩
        simp [dotProduct, Fin.sum_univ_succ, hAv]
        ring
  · refine ⟨_, A, ?_, hA, fun v => ?_⟩
    · filter_upwards [hpos] with w hw
      obtain ⟨G', hG', e, -⟩ := td_eval P w.1 w.2 hw.le
      rw [hG', Option.map_some, e]
    · rw [hAv, g5, g6]
      simp [dotProduct, Fin.sum_univ_succ]
      ring

/-- Near `x0` the integrator reaches lift-off, at a time which depends continuously on the start; there the motion depends
differentiably on time and start, with the velocity of the stance dynamics and the matrix found by the integrator. -/
def SmoothLiftoff (P : Slip) (ode : Slip.GradOde) (x0 : Fin 5 → ℝ) : Prop :=
  ∃ (φ : ℝ → (Fin 5 → ℝ) → Fin 5 → ℝ) (τ : (Fin 5 → ℝ) → ℝ) (Φ : Matrix (Fin 5) (Fin 5) ℝ)
    (L : ℝ × (Fin 5 → ℝ) →L[ℝ] (Fin 5 → ℝ)),
    (∀ᶠ y in 𝓝 x0, φ (τ y) y 0 = P.l0 ∧ ∃ Ψ, ode y = some (φ (τ y) y, Ψ, τ y)) ∧
    ode x0 = some (φ (τ x0) x0, Φ, τ x0) ∧ ContinuousAt τ x0 ∧
    HasFDerivAt (fun p : ℝ × (Fin 5 → ℝ) => φ p.1 p.2) L (τ x0, x0) ∧
    ∀ s v, L (s, v) = s • P.stance (φ (τ x0) x0) + Φ *ᵥ v

/-- C90. `touchdown_to_liftoff_gradient` returns the derivatives of the lift-off state and time with respect to the state
after touchdown, if the leg is extending at lift-off; the leg length at lift-off does not change. -/
theorem C90_touchdownToLiftoff (P : Slip) (ode : Slip.GradOde) (x0 : Fin 5 → ℝ) (ho : SmoothLiftoff P ode x0)
    (G : Matrix (Fin 5) (Fin 5) ℝ) (x dt : Fin 5 → ℝ) (t : ℝ) (hr : P.touchdownToLiftoffGrad ode x0 = some (G, x, dt, t))
    (hv : x 2 ≠ 0) :
    DerivOf (fun y => (P.touchdownToLiftoffGrad ode y).map (·.2.1)) (fun v => G *ᵥ v) x0 ∧
    DerivOf (fun y => (P.touchdownToLiftoffGrad ode y).map (·.2.2.2)) (fun v => dt ⬝ᵥ v) x0 ∧
    (∀ v, (G *ᵥ v) 0 = 0) ∧ ∀ᶠ y in 𝓝 x0, ∀ r ∈ P.touchdownToLiftoffGrad ode y, r.2.1 0 = P.l0 := by
  obtain ⟨φ, τ, Φ, L, h1, h2, h3, h4, h5⟩ := ho
  simp only [Slip.touchdownToLiftoffGrad, h2, Option.bind_eq_bind, Option.bind_some, Option.some.injEq, Prod.mk.injEq] at hr
  obtain ⟨rfl, rfl, rfl, rfl⟩ := hr
  set x1 := φ (τ x0) x0 with hx1
  have hd : (![1, 0, 0, 0, 0] : Fin 5 → ℝ) ⬝ᵥ P.stance x1 = x1 2 := by
    simp [dotProduct, Fin.sum_univ_succ, Slip.stance]
  have hrow : ∀ v : Fin 5 → ℝ, ((![1, 0, 0, 0, 0] : Fin 5 → ℝ) ᵥ* Φ) ⬝ᵥ v = (Φ *ᵥ v) 0 := by
    intro v
    rw [← dotProduct_mulVec]
    simp [dotProduct, Fin.sum_univ_succ]
  have hdt : ∀ v : Fin 5 → ℝ, ((-1 / ((![1, 0, 0, 0, 0] : Fin 5 → ℝ) ⬝ᵥ P.stance x1)) •
      ((![1, 0, 0, 0, 0] : Fin 5 → ℝ) ᵥ* Φ)) ⬝ᵥ v = -(x1 2)⁻¹ * (Φ *ᵥ v) 0 := by
    intro v
    rw [smul_dotProduct, hrow, hd, smul_eq_mul]
    ring
  -- the lift-off time
  have hL0 : ∀ s v, L (s, v) 0 = s * x1 2 + (Φ *ᵥ v) 0 := by
    intro s v
    rw [h5]
    simp [Slip.stance]
  have hg : HasFDerivAt (fun p : ℝ × (Fin 5 → ℝ) => φ p.1 p.2 0) ((ContinuousLinearMap.proj (R := ℝ) (0 : Fin 5)).comp L)
      (τ x0, x0) := (hasFDerivAt_pi'.1 h4) 0
  have hτ := implicit_time (fun p : ℝ × (Fin 5 → ℝ) => φ p.1 p.2 0) τ x0 _ hg (by
    have := h1.self_of_nhds.1
    filter_upwards [h1] with y hy
    rw [hy.1, this]) h3 (by
    simp only [ContinuousLinearMap.comp_apply, ContinuousLinearMap.proj_apply, hL0]
    simpa using hv)
  have hτv : ∀ v, (-(((ContinuousLinearMap.proj (R := ℝ) (0 : Fin 5)).comp L) (1, 0))⁻¹ •
      ((ContinuousLinearMap.proj (R := ℝ) (0 : Fin 5)).comp L).comp (ContinuousLinearMap.inr ℝ ℝ (Fin 5 → ℝ))) v =
      -(x1 2)⁻¹ * (Φ *ᵥ v) 0 := by
    intro v
    simp [hL0]
  have hev : ∀ᶠ y in 𝓝 x0, ∃ Ψ dt', P.touchdownToLiftoffGrad ode y = some (Ψ, φ (τ y) y, dt', τ y) := by
    filter_upwards [h1] with y hy
    obtain ⟨Ψ, e⟩ := hy.2
    simp only [Slip.touchdownToLiftoffGrad, e, Option.bind_eq_bind, Option.bind_some]
    exact ⟨_, _, rfl⟩
  refine ⟨?_, ?_, ?_, ?_⟩
  · refine ⟨fun y => φ (τ y) y, _, ?_, HasFDerivAt.comp (g := fun p : ℝ × (Fin 5 → ℝ) => φ p.1 p.2)
      (f := fun y => (τ y, y)) x0 h4 (hτ.prodMk (hasFDerivAt_id x0)), fun v => ?_⟩
    · filter_upwards [hev] with y hy
      obtain ⟨Ψ, dt', e⟩ := hy
      rw [e]; rfl
    · rw [ContinuousLinearMap.comp_apply, ContinuousLinearMap.prod_apply, hτv, h5]
      beta_reduce
      rw [add_mulVec, vecMulVec_mulVec', hdt, add_comm]
      rfl
  · refine ⟨τ, _, ?_, hτ, fun v => ?_⟩
    · filter_upwards [hev] with y hy
      obtain ⟨Ψ, dt', e⟩ := hy
      rw [e]; rfl
    · exact (hτv v).trans (hdt v).symm
  · intro v
    rw [add_mulVec, vecMulVec_mulVec', hdt]
    simp [Slip.stance]
    field_simp
    ring
  · filter_upwards [hev, h1] with y hy hy1 r hr
    obtain ⟨Ψ, dt', e⟩ := hy
    rw [e] at hr
    cases hr
    exact hy1.1

/-- C90. `apex_to_apex_gradient` returns the derivatives, with respect to the apex state and the leg angle, of the next apex
state, of the duration, of the state before touchdown and of the state after lift-off, if the foot is above the ground at the
apex, the leg extends at lift-off and the mass moves up after it. -/
theorem C90_apexToApex (P : Slip) (hg : 0 < P.g) (ode : Slip.GradOde) (a : Fin 3 → ℝ) (θ : ℝ) (h : P.l0 * cos θ < a 1)
    (G : Slip.ApexGrad) (hG : P.apexToApexGrad ode a θ = some G) (ho : SmoothLiftoff P ode (P.touchdown G.xTd θ))
    (hlo : ∀ r ∈ ode (P.touchdown G.xTd θ), r.1 2 ≠ 0) (hup : 0 < G.xLo 3) :
    DerivOf (fun w : (Fin 3 → ℝ) × ℝ => (P.apexToApexGrad ode w.1 w.2).map (·.x))
      (fun v => G.dxApex *ᵥ v.1 + v.2 • G.dxLeg) (a, θ) ∧
    DerivOf (fun w : (Fin 3 → ℝ) × ℝ => (P.apexToApexGrad ode w.1 w.2).map (·.t))
      (fun v => G.dtApex ⬝ᵥ v.1 + v.2 * G.dtLeg) (a, θ) ∧
    DerivOf (fun w : (Fin 3 → ℝ) × ℝ => (P.apexToApexGrad ode w.1 w.2).map (·.xTd))
      (fun v => G.dTdApex *ᵥ v.1 + v.2 • G.dTdLeg) (a, θ) ∧
    DerivOf (fun w : (Fin 3 → ℝ) × ℝ => (P.apexToApexGrad ode w.1 w.2).map (·.xLo))
      (fun v => G.dLoApex *ᵥ v.1 + v.2 • G.dLoLeg) (a, θ) := by
  obtain ⟨td, htd, d1, d2⟩ := C90_apexToTouchdown P hg a θ h
  simp only [Slip.apexToApexGrad, htd, Option.bind_eq_bind, Option.bind_some] at hG
  obtain ⟨lo, hlo1, hG⟩ := Option.bind_eq_some_iff.1 hG
  obtain ⟨ap, hap, hG⟩ := Option.bind_eq_some_iff.1 hG
  obtain ⟨M, x1, dt, t1⟩ := lo
  obtain ⟨N, x2, dt2, t2⟩ := ap
  cases hG
  simp only at ho hlo hup hap ⊢
  have hv : x1 2 ≠ 0 := by
    simp only [Slip.touchdownToLiftoffGrad, Option.bind_eq_bind] at hlo1
    obtain ⟨r, hr, e⟩ := Option.bind_eq_some_iff.1 hlo1
    cases e
    exact hlo r hr
  obtain ⟨l1, l2, l3, l4⟩ := C90_touchdownToLiftoff P ode _ ho M x1 dt t1 hlo1 hv
  obtain ⟨N', x2', dt2', t2', hap', a1, a2⟩ := C90_liftoffToApex P (P.liftoff x1) hup
  rw [hap] at hap'
  cases hap'
  obtain ⟨gx, Ax, e1, f1, v1⟩ := d1
  obtain ⟨gt, At, e2, f2, v2⟩ := d2
  obtain ⟨lx, Al, e3, f3, v3⟩ := l1
  obtain ⟨lt, Alt, e4, f4, v4⟩ := l2
  obtain ⟨ax, Aa, e5, f5, v5⟩ := a1
  obtain ⟨at', Aat, e6, f6, v6⟩ := a2
  obtain ⟨tt, At', e7, f7, v7⟩ := C90_touchdown P td.x θ
  have q1 : gx (a, θ) = td.x := by
    have := e1.self_of_nhds
    simp only [htd] at this
    exact (Option.some_injective _ this).symm
  have q3 : lx (P.touchdown td.x θ) = x1 := by
    have := e3.self_of_nhds
    simp only [hlo1] at this
    exact (Option.some_injective _ this).symm
  have q7 : ∀ᶠ w in 𝓝 (td.x, θ), tt w = P.touchdown w.1 w.2 := by
    filter_upwards [e7] with w hw
    exact (Option.some_injective _ hw).symm
  have r7 : HasFDerivAt (fun w : (Fin 4 → ℝ) × ℝ => P.touchdown w.1 w.2) At' (td.x, θ) :=
    f7.congr_of_eventuallyEq (by filter_upwards [q7] with w hw using hw.symm)
  -- the state after touchdown
  have r8 : HasFDerivAt (fun w : (Fin 3 → ℝ) × ℝ => P.touchdown (gx w) w.2)
      (At'.comp (Ax.prod (ContinuousLinearMap.snd ℝ _ _))) (a, θ) :=
    HasFDerivAt.comp (g := fun w : (Fin 4 → ℝ) × ℝ => P.touchdown w.1 w.2) (f := fun w => (gx w, w.2)) (a, θ)
      (by simpa only [q1] using r7) (f1.prodMk hasFDerivAt_snd)
  have s8 : P.touchdown (gx (a, θ)) θ = P.touchdown td.x θ := by rw [q1]
  -- the state before and after lift-off
  have r9 : HasFDerivAt (fun w : (Fin 3 → ℝ) × ℝ => lx (P.touchdown (gx w) w.2))
      (Al.comp (At'.comp (Ax.prod (ContinuousLinearMap.snd ℝ _ _)))) (a, θ) :=
    HasFDerivAt.comp (g := lx) (f := fun w : (Fin 3 → ℝ) × ℝ => P.touchdown (gx w) w.2) (a, θ) (by rw [s8]; exact f3) r8
  have s9 : lx (P.touchdown (gx (a, θ)) θ) = x1 := by rw [s8, q3]
  have r10 : HasFDerivAt (fun w : (Fin 3 → ℝ) × ℝ => P.liftoff (Function.update (lx (P.touchdown (gx w) w.2)) 0 P.l0)) _ (a, θ) :=
    HasFDerivAt.comp (g := fun s => P.liftoff (Function.update s 0 P.l0))
      (f := fun w : (Fin 3 → ℝ) × ℝ => lx (P.touchdown (gx w) w.2)) (a, θ)
      (by rw [s9]; exact C90_liftoff_partial P x1) r9
  have k8 := r8.continuousAt
  rw [ContinuousAt, s8] at k8
  have ev : ∀ᶠ w in 𝓝 (a, θ), lx (P.touchdown (gx w) w.2) 0 = P.l0 ∧
      ∃ r, P.touchdownToLiftoffGrad ode (P.touchdown (gx w) w.2) = some r ∧ r.2.1 = lx (P.touchdown (gx w) w.2) ∧
        r.2.2.2 = lt (P.touchdown (gx w) w.2) := by
    filter_upwards [k8.eventually e3, k8.eventually e4, k8.eventually l4] with w w3 w4 w5
    obtain ⟨r, hr, hr2⟩ := Option.map_eq_some_iff.1 w3
    obtain ⟨r', hr', hr2'⟩ := Option.map_eq_some_iff.1 w4
    rw [hr] at hr'
    cases hr'
    exact ⟨by rw [← hr2]; exact w5 r hr, r, hr, hr2, hr2'⟩
  have upd : ∀ s : Fin 5 → ℝ, s 0 = P.l0 → Function.update s 0 P.l0 = s := by
    intro s hs
    rw [← hs, Function.update_eq_self]
  have r11 : HasFDerivAt (fun w : (Fin 3 → ℝ) × ℝ => P.liftoff (lx (P.touchdown (gx w) w.2))) _ (a, θ) :=
    r10.congr_of_eventuallyEq (by filter_upwards [ev] with w hw; rw [upd _ hw.1])
  have s11 : P.liftoff (lx (P.touchdown (gx (a, θ)) θ)) = P.liftoff x1 := by rw [s9]
  have k11 := r11.continuousAt
  rw [ContinuousAt, s11] at k11
  have r12 : HasFDerivAt (fun w : (Fin 3 → ℝ) × ℝ => ax (P.liftoff (lx (P.touchdown (gx w) w.2)))) _ (a, θ) :=
    HasFDerivAt.comp (g := ax) (f := fun w : (Fin 3 → ℝ) × ℝ => P.liftoff (lx (P.touchdown (gx w) w.2))) (a, θ)
      (by rw [s11]; exact f5) r11
  have r13 : HasFDerivAt (fun w : (Fin 3 → ℝ) × ℝ => at' (P.liftoff (lx (P.touchdown (gx w) w.2)))) _ (a, θ) :=
    HasFDerivAt.comp (g := at') (f := fun w : (Fin 3 → ℝ) × ℝ => P.liftoff (lx (P.touchdown (gx w) w.2))) (a, θ)
      (by rw [s11]; exact f6) r11
  have r14 : HasFDerivAt (fun w : (Fin 3 → ℝ) × ℝ => lt (P.touchdown (gx w) w.2)) _ (a, θ) :=
    HasFDerivAt.comp (g := lt) (f := fun w : (Fin 3 → ℝ) × ℝ => P.touchdown (gx w) w.2) (a, θ) (by rw [s8]; exact f4) r8
  have all : ∀ᶠ w in 𝓝 (a, θ), ∃ R, P.apexToApexGrad ode w.1 w.2 = some R ∧ R.xTd = gx w ∧
      R.xLo = P.liftoff (lx (P.touchdown (gx w) w.2)) ∧ R.x = ax (P.liftoff (lx (P.touchdown (gx w) w.2))) ∧
      R.t = gt w + lt (P.touchdown (gx w) w.2) + at' (P.liftoff (lx (P.touchdown (gx w) w.2))) := by
    filter_upwards [e1, e2, ev, k11.eventually e5, k11.eventually e6] with w w1 w2 w3 w5 w6
    obtain ⟨T, hT, hT1⟩ := Option.map_eq_some_iff.1 w1
    obtain ⟨T', hT', hT2⟩ := Option.map_eq_some_iff.1 w2
    rw [hT] at hT'
    cases hT'
    obtain ⟨-, ⟨rM, rx, rd, rt⟩, hr, hr1, hr2⟩ := w3
    obtain ⟨⟨A1, A2, A3, A4⟩, hA, hA1⟩ := Option.map_eq_some_iff.1 w5
    obtain ⟨A', hA', hA2⟩ := Option.map_eq_some_iff.1 w6
    rw [hA] at hA'
    cases hA'
    simp only at hr1 hr2 hA1 hA2
    subst hr1
    rw [← hT1] at hr hA
    simp only [Slip.apexToApexGrad, hT, Option.bind_eq_bind, Option.bind_some, hr, hA]
    exact ⟨_, rfl, hT1, by rw [hT1], hA1, by rw [hT2, hr2, hA2]⟩
  refine ⟨⟨_, _, ?_, r12, fun v => ?_⟩, ⟨_, _, ?_, (f2.add r14).add r13, fun v => ?_⟩, ⟨_, _, ?_, f1, fun v => ?_⟩,
    ⟨_, _, ?_, r11, fun v => ?_⟩⟩
  · filter_upwards [all] with w hw
    obtain ⟨R, hR, -, -, e, -⟩ := hw
    rw [hR, Option.map_some, e]
  · simp only [ContinuousLinearMap.comp_apply, ContinuousLinearMap.prod_apply, v5, v3, v7, v1,
      LinearMap.coe_toContinuousLinearMap', mulVecLin_apply, ContinuousLinearMap.coe_snd']
    simp only [mulVec_add, mulVec_smul, mulVec_mulVec, smul_add, Matrix.mul_assoc]
    abel
  · filter_upwards [all] with w hw
    obtain ⟨R, hR, -, -, -, e⟩ := hw
    rw [hR, Option.map_some, e]
    rfl
  · simp only [_root_.add_apply, ContinuousLinearMap.comp_apply, ContinuousLinearMap.prod_apply, v6, v4, v3, v7,
      v1, v2, LinearMap.coe_toContinuousLinearMap', mulVecLin_apply, ContinuousLinearMap.coe_snd']
    simp only [mulVec_add, mulVec_smul, mulVec_mulVec, add_dotProduct, dotProduct_add,
      dotProduct_smul, ← dotProduct_mulVec, smul_eq_mul]
    ring
  · filter_upwards [all] with w hw
    obtain ⟨R, hR, e, -⟩ := hw
    rw [hR, Option.map_some, e]
  · exact v1 v
  · filter_upwards [all] with w hw
    obtain ⟨R, hR, -, e, -⟩ := hw
    rw [hR, Option.map_some, e]
  · simp only [ContinuousLinearMap.comp_apply, ContinuousLinearMap.prod_apply, v3, v7, v1,
      LinearMap.coe_toContinuousLinearMap', mulVecLin_apply, ContinuousLinearMap.coe_snd']
    simp only [mulVec_add, mulVec_smul, mulVec_mulVec, smul_add]
    abel

/-- C90. The next apex and the duration of `apex_to_apex_gradient` are those of `apex_map`, if both integrate the stance
phase with the same result and `apex_map` accepts. -/
theorem C90_agrees (P : Slip) (hg : 0 < P.g) (ode : Slip.GradOde) (ode' : Slip.StanceOde)
    (he : ∀ x, ode' x = (ode x).map fun r => (r.1, r.2.2)) (a : Fin 3 → ℝ) (θ : ℝ) (r : ℝ × ℝ × ℝ × ℝ)
    (hr : P.apexMap ode' (a 0) (a 1) (a 2) θ = some r) :
    ∃ G, P.apexToApexGrad ode a θ = some G ∧ G.x = ![r.1, r.2.1, r.2.2.1] ∧ G.t = r.2.2.2 := by
  unfold Slip.apexMap at hr
  split_ifs at hr with c1 c2 c3
  rw [not_lt, sub_nonneg] at c1
  obtain ⟨td, htd, g1, g2, -⟩ := td_eval P a θ c1
  have hsq : √(2 * (a 1 - P.l0 * cos θ) / P.g) = √(2 * P.g * (a 1 - P.l0 * cos θ)) / P.g := by
    rw [show 2 * (a 1 - P.l0 * cos θ) / P.g = 2 * P.g * (a 1 - P.l0 * cos θ) / P.g ^ 2 by field_simp,
      Real.sqrt_div' _ (by positivity), Real.sqrt_sq hg.le]
  simp only [Option.bind_eq_bind, hsq, he] at hr
  rw [← g1] at g2 hr
  rw [← g2] at hr
  obtain ⟨s, hs, hr⟩ := Option.bind_eq_some_iff.1 hr
  obtain ⟨⟨x1, Φ, t1⟩, ho, rfl⟩ := Option.map_eq_some_iff.1 hs
  simp only at hr
  split_ifs at hr with c4
  cases hr
  simp only [Slip.apexToApexGrad, htd, Option.bind_eq_bind, Option.bind_some, Slip.touchdownToLiftoffGrad, ho,
    Slip.liftoffToApexGrad, if_neg c4]
  refine ⟨_, rfl, ?_, rfl⟩
  ext i
  fin_cases i
  · simp
  · simp
    field_simp
  · simp

/-- The map from apex state and leg angle to the next apex state over a stone: heights are measured from the ground, those of
the gradient from the stone. -/
noncomputable def overStone (P : Slip) (ode : Slip.GradOde) (S : Stone) (w : (Fin 3 → ℝ) × ℝ) : Option Slip.ApexGrad :=
  P.apexToApexGrad ode ![w.1 0, w.1 1 - S.height, w.1 2] w.2

open Classical in
/-- The three conditions of a step onto a stone, each a function which has to be nonnegative: the foot starts above the stone,
the mass moves up after lift-off, and the foot comes down right of the left end and left of the right end of the stone. -/
noncomputable def stepConditions (P : Slip) (ode : Slip.GradOde) (S : Stone) : List ((Fin 3 → ℝ) × ℝ → Option ℝ) :=
  (fun w => some ((foot P.l0 w.2 ![w.1 0, w.1 1, w.1 2, 0]).2 - S.height)) ::
  (fun w => (overStone P ode S w).map fun G => G.xLo 3) ::
  ((if S.left = ⊥ then [] else
    [fun w => (overStone P ode S w).map fun G => (foot P.l0 w.2 G.xTd).1 - S.left.toReal]) ++
  (if S.right = ⊤ then [] else
    [fun w => (overStone P ode S w).map fun G => S.right.toReal - (foot P.l0 w.2 G.xTd).1]))

theorem shift_eq (a : Fin 3 → ℝ) (h : ℝ) : (![a 0, a 1 - h, a 2] : Fin 3 → ℝ) = a - ![0, h, 0] := by
  ext i; fin_cases i <;> simp

theorem DerivOf.shift {F : Type*} [NormedAddCommGroup F] [NormedSpace ℝ F] {f : (Fin 3 → ℝ) × ℝ → Option F}
    {L : (Fin 3 → ℝ) × ℝ → F} {a : Fin 3 → ℝ} {θ h : ℝ} (hf : DerivOf f L (![a 0, a 1 - h, a 2], θ)) :
    DerivOf (fun w => f (![w.1 0, w.1 1 - h, w.1 2], w.2)) L (a, θ) := by
  obtain ⟨g, A, h1, h2, h3⟩ := hf
  have hs : HasFDerivAt (fun w : (Fin 3 → ℝ) × ℝ => (((![w.1 0, w.1 1 - h, w.1 2] : Fin 3 → ℝ), w.2) : (Fin 3 → ℝ) × ℝ))
      (ContinuousLinearMap.id ℝ _) (a, θ) := by
    have := (hasFDerivAt_id (𝕜 := ℝ) ((a, θ) : (Fin 3 → ℝ) × ℝ)).sub_const ((![0, h, 0], 0) : (Fin 3 → ℝ) × ℝ)
    refine this.congr_of_eventuallyEq (Filter.Eventually.of_forall fun w => ?_)
    simp [shift_eq, Prod.ext_iff]
  refine ⟨fun w => g (![w.1 0, w.1 1 - h, w.1 2], w.2), A.comp (ContinuousLinearMap.id ℝ _),
    (hs.continuousAt (x := ((a, θ) : (Fin 3 → ℝ) × ℝ))).eventually h1, HasFDerivAt.comp (g := g) (a, θ) h2 hs, fun v => by simp [h3]⟩

/-- C91. `apex_map_linear_approximation` returns the first order approximations, at the given apex state and leg angle, of the
next apex state, of the duration and of the conditions of the step, one row for each condition. -/
theorem C91_firstOrder (P : Slip) (hg : 0 < P.g) (ode : Slip.GradOde) (a : Fin 3 → ℝ) (S : Stone) (θ : ℝ) (R : Slip.ApexLin)
    (hR : P.apexLinear ode a S θ = some R) (habove : S.height < (foot P.l0 θ ![a 0, a 1, a 2, 0]).2)
    (G : Slip.ApexGrad) (hG : overStone P ode S (a, θ) = some G)
    (ho : SmoothLiftoff P ode (P.touchdown G.xTd θ)) (hlo : ∀ r ∈ ode (P.touchdown G.xTd θ), r.1 2 ≠ 0) (hup : 0 < G.xLo 3) :
    FirstOrder (fun w => (overStone P ode S w).map fun G => G.x + ![0, S.height, 0])
      (fun w => R.A *ᵥ w.1 + w.2 • R.B + R.c) (a, θ) ∧
    FirstOrder (fun w => (overStone P ode S w).map (·.t)) (fun w => R.at' ⬝ᵥ w.1 + R.bt * w.2 + R.ct) (a, θ) ∧
    List.Forall₂ (fun f row => FirstOrder f (fun w => row.2 - row.1 ⬝ᵥ ![w.1 0, w.1 1, w.1 2, w.2]) (a, θ))
      (stepConditions P ode S) R.rows := by
  unfold Slip.apexLinear at hR
  by_cases hc : P.canTouch ![a 0, a 1, a 2, 0] S θ
  swap
  · rw [if_neg hc] at hR
    cases hR
  rw [if_pos hc] at hR
  have hG' := hG
  unfold overStone at hG'
  simp only [hG', Option.bind_eq_bind, Option.bind_some, Option.some.injEq] at hR
  subst hR
  have hab : P.l0 * cos θ < (![a 0, a 1 - S.height, a 2] : Fin 3 → ℝ) 1 := by
    simp [foot] at habove ⊢
    linarith
  obtain ⟨d1, d2, d3, d4⟩ := C90_apexToApex P hg ode _ θ hab G hG' ho hlo hup
  replace d1 := DerivOf.shift d1
  replace d2 := DerivOf.shift d2
  replace d3 := DerivOf.shift d3
  replace d4 := DerivOf.shift d4
  have hsin : HasFDerivAt (fun w : (Fin 3 → ℝ) × ℝ => P.l0 * sin w.2) _ (a, θ) := hasFDerivAt_snd.sin.const_mul P.l0
  -- the position of the foot at touchdown
  have dfoot : DerivOf (fun w => (overStone P ode S w).map fun G => (foot P.l0 w.2 G.xTd).1)
      (fun v => (G.dTdApex *ᵥ v.1) 0 + v.2 * G.dTdLeg 0 + P.l0 * cos θ * v.2) (a, θ) := by
    obtain ⟨g, A, h1, h2, h3⟩ := d3
    refine ⟨fun w => g w 0 + P.l0 * sin w.2, _, ?_, ((hasFDerivAt_pi'.1 h2) 0).add hsin, fun v => ?_⟩
    · filter_upwards [h1] with w hw
      obtain ⟨R, hR, e⟩ := Option.map_eq_some_iff.1 hw
      simp [overStone, hR, foot, e]
    · simp [h3]
      ring
  refine ⟨⟨?_, ?_⟩, ⟨?_, ?_⟩, ?_⟩
  · simp only [hG, Option.map_some, Option.some.injEq]
    abel
  · obtain ⟨g, A, h1, h2, h3⟩ := d1
    refine ⟨fun w => g w + ![0, S.height, 0], A, ?_, h2.add_const _, fun v => ?_⟩
    · filter_upwards [h1] with w hw
      obtain ⟨R, hR, e⟩ := Option.map_eq_some_iff.1 hw
      simp only [overStone, hR, Option.map_some, e]
    · rw [h3]
      simp only [Prod.fst_add, Prod.snd_add, mulVec_add, add_smul]
      abel
  · simp only [hG, Option.map_some, Option.some.injEq]
    ring
  · refine NNL.DerivOf.congr d2 (Filter.Eventually.of_forall fun _ => rfl) fun v => ?_
    simp only [Prod.fst_add, Prod.snd_add, dotProduct_add]
    ring
  · have r1 : FirstOrder (fun w : (Fin 3 → ℝ) × ℝ => some ((foot P.l0 w.2 ![w.1 0, w.1 1, w.1 2, 0]).2 - S.height))
        (fun w => (-P.l0 * cos θ - S.height - P.l0 * sin θ * θ) -
          (![0, -1, 0, -P.l0 * sin θ] : Fin 4 → ℝ) ⬝ᵥ ![w.1 0, w.1 1, w.1 2, w.2]) (a, θ) := by
      refine ⟨?_, fun w => (foot P.l0 w.2 ![w.1 0, w.1 1, w.1 2, 0]).2 - S.height, _, Filter.Eventually.of_forall fun _ => rfl,
        ((jfst 1 (a, θ)).sub ((hasFDerivAt_snd.cos).const_mul P.l0)).sub_const S.height, fun v => ?_⟩
      · simp [foot, dotProduct, Fin.sum_univ_succ]
        ring
      · simp [dotProduct, Fin.sum_univ_succ]
        ring
    have r2 : FirstOrder (fun w : (Fin 3 → ℝ) × ℝ => (overStone P ode S w).map fun G => G.xLo 3)
        (fun w => (G.xLo 3 - (∑ j, G.dLoApex 3 j * a j) - G.dLoLeg 3 * θ) -
          (![-G.dLoApex 3 0, -G.dLoApex 3 1, -G.dLoApex 3 2, -G.dLoLeg 3] : Fin 4 → ℝ) ⬝ᵥ ![w.1 0, w.1 1, w.1 2, w.2])
        (a, θ) := by
      refine ⟨?_, ?_⟩
      · simp [hG, dotProduct, Fin.sum_univ_succ]
        ring
      · obtain ⟨g, A, h1, h2, h3⟩ := d4
        refine ⟨fun w => g w 3, _, ?_, (hasFDerivAt_pi'.1 h2) 3, fun v => ?_⟩
        · filter_upwards [h1] with w hw
          obtain ⟨R, hR, e⟩ := Option.map_eq_some_iff.1 hw
          simp [overStone, hR, e]
        · simp [h3, dotProduct, Fin.sum_univ_succ, Matrix.mulVec]
          ring
    refine List.Forall₂.cons r1 (List.Forall₂.cons r2 (List.rel_append (R := fun f (row : (Fin 4 → ℝ) × ℝ) =>
      FirstOrder f (fun w => row.2 - row.1 ⬝ᵥ ![w.1 0, w.1 1, w.1 2, w.2]) (a, θ)) ?_ ?_))
    · by_cases hl : S.left = ⊥
      · simp [hl]
      · simp only [hl, if_false]
        refine List.Forall₂.cons ⟨?_, ?_⟩ List.Forall₂.nil
        · simp [hG, foot, dotProduct, Fin.sum_univ_succ]
          ring
        · obtain ⟨g, A, h1, h2, h3⟩ := dfoot
          refine ⟨fun w => g w - S.left.toReal, _, ?_, h2.sub_const _, fun v => ?_⟩
          · filter_upwards [h1] with w hw
            obtain ⟨R, hR, e⟩ := Option.map_eq_some_iff.1 hw
            simp [hR, e]
          · simp [h3, dotProduct, Fin.sum_univ_succ, Matrix.mulVec]
            ring
    · by_cases hl : S.right = ⊤
      · simp [hl]
      · simp only [hl, if_false]
        refine List.Forall₂.cons ⟨?_, ?_⟩ List.Forall₂.nil
        · simp [hG, foot, dotProduct, Fin.sum_univ_succ]
          ring
        · obtain ⟨g, A, h1, h2, h3⟩ := dfoot
          refine ⟨fun w => S.right.toReal - g w, _, ?_, h2.const_sub _, fun v => ?_⟩
          · filter_upwards [h1] with w hw
            obtain ⟨R, hR, e⟩ := Option.map_eq_some_iff.1 hw
            simp [hR, e]
          · simp [h3, dotProduct, Fin.sum_univ_succ, Matrix.mulVec]
            ring

/-- C91. If `apex_map_linear_approximation` accepts then its apex state and leg angle satisfy the returned constraints. -/
theorem C91_feasible (P : Slip) (ode : Slip.GradOde) (a : Fin 3 → ℝ) (S : Stone) (θ : ℝ) (R : Slip.ApexLin)
    (hR : P.apexLinear ode a S θ = some R) : ∀ row ∈ R.rows, row.1 ⬝ᵥ ![a 0, a 1, a 2, θ] ≤ row.2 := by
  unfold Slip.apexLinear at hR
  by_cases hc : P.canTouch ![a 0, a 1, a 2, 0] S θ
  swap
  · rw [if_neg hc] at hR
    cases hR
  rw [if_pos hc] at hR
  obtain ⟨G, hG, hR⟩ := Option.bind_eq_some_iff.1 hR
  cases hR
  obtain ⟨t, ht⟩ := Option.isSome_iff_exists.1 hc
  unfold Slip.timeToTouchdown at ht
  simp only at ht
  split_ifs at ht with h1 h2
  cases ht
  simp only [not_lt, gt_iff_lt, cons_val_one, cons_val_zero] at h1
  obtain ⟨td, htd, g1, g2, -⟩ := td_eval P ![a 0, a 1 - S.height, a 2] θ (by simp; linarith)
  simp only [Slip.apexToApexGrad, htd, Option.bind_eq_bind, Option.bind_some] at hG
  obtain ⟨lo, -, hG⟩ := Option.bind_eq_some_iff.1 hG
  obtain ⟨ap, hap, hG⟩ := Option.bind_eq_some_iff.1 hG
  have hx : G.xTd = td.x := by cases hG; rfl
  have hup : 0 ≤ G.xLo 3 := by
    cases hG
    unfold Slip.liftoffToApexGrad at hap
    split_ifs at hap with c
    exact not_lt.1 c
  have hfoot : a 0 + P.l0 * sin θ + a 2 * ((√((![a 0, a 1, a 2, 0] : Fin 4 → ℝ) 3 ^ 2 + 2 * P.g *
      ((![a 0, a 1, a 2, 0] : Fin 4 → ℝ) 1 - P.l0 * cos θ - S.height)) + (![a 0, a 1, a 2, 0] : Fin 4 → ℝ) 3) / P.g) =
      G.xTd 0 + P.l0 * sin θ := by
    rw [hx, g2]
    simp
    rw [show a 1 - S.height - P.l0 * cos θ = a 1 - P.l0 * cos θ - S.height by ring]
    ring
  have hl := h2.1
  have hr := h2.2
  change ((a 0 + P.l0 * sin θ + a 2 * _ : ℝ) : EReal) ≥ _ at hl
  change ((a 0 + P.l0 * sin θ + a 2 * _ : ℝ) : EReal) ≤ _ at hr
  rw [hfoot] at hl hr
  intro row hrow
  simp only [List.mem_cons, List.mem_append] at hrow
  rcases hrow with rfl | rfl | hrow | hrow
  · simp [dotProduct, Fin.sum_univ_succ]
    linarith
  · simp [dotProduct, Fin.sum_univ_succ]
    linarith
  · split_ifs at hrow with c
    · cases hrow
    · rw [List.mem_singleton] at hrow
      subst hrow
      have : S.left.toReal ≤ G.xTd 0 + P.l0 * sin θ := by
        have := EReal.toReal_le_toReal hl c (EReal.coe_ne_top _)
        rwa [EReal.toReal_coe] at this
      simp [dotProduct, Fin.sum_univ_succ]
      linarith
  · split_ifs at hrow with c
    · cases hrow
    · rw [List.mem_singleton] at hrow
      subst hrow
      have : G.xTd 0 + P.l0 * sin θ ≤ S.right.toReal := by
        have := EReal.toReal_le_toReal hr (EReal.coe_ne_bot _) c
        rwa [EReal.toReal_coe] at this
      simp [dotProduct, Fin.sum_univ_succ]
      linarith

/-! ### Examples: the hop from the height 4.5 -/

/-- An integrator whose result depends affinely on the start. -/
noncomputable def exGradOde : Slip.GradOde := fun y =>
  some (![4, 0, 1, 0, 0] + (-(y 0 - 4)) • exSlip.stance ![4, 0, 1, 0, 0] + (y - ![4, 0, -1, 0, 0]), 1, 3 * (π / 2) - (y 0 - 4))

theorem exGradOde_smooth : SmoothLiftoff exSlip exGradOde ![4, 0, -1, 0, 0] := by
  refine ⟨fun t y => ![4, 0, 1, 0, 0] + (t - 3 * (π / 2)) • exSlip.stance ![4, 0, 1, 0, 0] + (y - ![4, 0, -1, 0, 0]),
    fun y => 3 * (π / 2) - (y 0 - 4), 1, (ContinuousLinearMap.fst ℝ ℝ (Fin 5 → ℝ)).smulRight (exSlip.stance ![4, 0, 1, 0, 0]) +
      ContinuousLinearMap.snd ℝ ℝ (Fin 5 → ℝ), Filter.Eventually.of_forall fun y => ⟨?_, 1, ?_⟩, ?_, ?_, ?_, ?_⟩
  · simp [Slip.stance, exSlip, vecHead]
    ring
  · simp only [exGradOde, Option.some.injEq, Prod.mk.injEq, and_true]
    congr 3
    ring
  · simp [exGradOde]
  · exact (continuous_const.sub ((continuous_apply 0).sub continuous_const)).continuousAt
  · have h1 : HasFDerivAt (fun p : ℝ × (Fin 5 → ℝ) => (p.1 - 3 * (π / 2)) • exSlip.stance ![4, 0, 1, 0, 0])
        ((ContinuousLinearMap.fst ℝ ℝ (Fin 5 → ℝ)).smulRight (exSlip.stance ![4, 0, 1, 0, 0]))
        (3 * (π / 2) - ((![4, 0, -1, 0, 0] : Fin 5 → ℝ) 0 - 4), ![4, 0, -1, 0, 0]) :=
      (hasFDerivAt_fst.sub_const _).smul_const _
    exact (h1.const_add _).add (hasFDerivAt_snd.sub_const _)
  · intro s v
    simp

theorem exTd : exSlip.touchdown ![0, 4, 0, -1] 0 = ![4, 0, -1, 0, 0] := by
  ext i; fin_cases i <;> simp [Slip.touchdown, exSlip]

theorem exGradOde_x0 : exGradOde ![4, 0, -1, 0, 0] = some (![4, 0, 1, 0, 0], 1, 3 * (π / 2)) := by
  simp [exGradOde]

theorem exApexGrad : ∃ G, exSlip.apexToApexGrad exGradOde ![0, 4.5, 0] 0 = some G ∧ G.xTd = ![0, 4, 0, -1] ∧
    G.xLo = ![0, 4, 0, 1] := by
  obtain ⟨td, htd, g1, g2, -⟩ := td_eval exSlip ![0, 4.5, 0] 0 (by simp [exSlip]; norm_num)
  have hx : td.x = ![0, 4, 0, -1] := by
    rw [g2]
    have : √(2 * exSlip.g * ((![0, 4.5, 0] : Fin 3 → ℝ) 1 - exSlip.l0 * cos 0)) = 1 := by
      rw [show 2 * exSlip.g * ((![0, 4.5, 0] : Fin 3 → ℝ) 1 - exSlip.l0 * cos 0) = 1 by simp [exSlip]; norm_num, Real.sqrt_one]
    rw [this]
    ext i; fin_cases i <;> simp [exSlip]
  have e3 : exSlip.liftoff ![4, 0, 1, 0, 0] = ![0, 4, 0, 1] := by
    ext i; fin_cases i <;> simp [Slip.liftoff, exSlip]
  simp only [Slip.apexToApexGrad, htd, Option.bind_eq_bind, Option.bind_some, hx, exTd, Slip.touchdownToLiftoffGrad, exGradOde_x0,
    e3, Slip.liftoffToApexGrad]
  rw [if_neg (by simp)]
  exact ⟨_, rfl, rfl, rfl⟩

example : IsJacobian exSlip.stance (exSlip.stanceGrad ![4, 0, 1, 0, 0]) ![4, 0, 1, 0, 0] := C90_stance _ _ (by simp)

example : ¬ IsJacobian exSlip.liftoff (exSlip.liftoffGrad ![4, 0, 1, 1, 0]) ![4, 0, 1, 1, 0] := by
  rw [C90_liftoff_column _ _ (by simp [exSlip])]
  simp

example : ∃ G, exSlip.apexToTouchdownGrad ![0, 4.5, 0] 0 = some G ∧
    DerivOf (fun w : (Fin 3 → ℝ) × ℝ => (exSlip.apexToTouchdownGrad w.1 w.2).map (·.x))
      (fun v => G.dxApex *ᵥ v.1 + v.2 • G.dxLeg) (![0, 4.5, 0], 0) := by
  obtain ⟨G, h1, h2, -⟩ := C90_apexToTouchdown exSlip (by norm_num [exSlip]) ![0, 4.5, 0] 0 (by simp [exSlip]; norm_num)
  exact ⟨G, h1, h2⟩

example : ∃ G x dt t, exSlip.liftoffToApexGrad ![0, 4, 0, 1] = some (G, x, dt, t) := by
  obtain ⟨G, x, dt, t, h, -⟩ := C90_liftoffToApex exSlip ![0, 4, 0, 1] (by simp)
  exact ⟨G, x, dt, t, h⟩

/-- The integrator of the gradient and that of the hop agree at the touchdown of the hop. -/
example : ∃ G, exSlip.apexToApexGrad (fun x => (exStance x).map fun r => (r.1, 1, r.2)) ![0, 4.5, 0] 0 = some G ∧
    G.x = ![0, 4.5, 0] ∧ G.t = 1 + 3 * (π / 2) + 1 :=
  C90_agrees exSlip (by norm_num [exSlip]) _ exStance (fun x => by cases exStance x <;> rfl) ![0, 4.5, 0] 0 _ exHop

example : ∃ G x dt t, exSlip.touchdownToLiftoffGrad exGradOde ![4, 0, -1, 0, 0] = some (G, x, dt, t) ∧
    DerivOf (fun y => (exSlip.touchdownToLiftoffGrad exGradOde y).map (·.2.1)) (fun v => G *ᵥ v) ![4, 0, -1, 0, 0] := by
  have h : ∃ G x dt t, exSlip.touchdownToLiftoffGrad exGradOde ![4, 0, -1, 0, 0] = some (G, x, dt, t) ∧ x 2 ≠ 0 := by
    simp only [Slip.touchdownToLiftoffGrad, exGradOde_x0, Option.bind_eq_bind, Option.bind_some]
    exact ⟨_, _, _, _, rfl, by simp⟩
  obtain ⟨G, x, dt, t, hr, hv⟩ := h
  exact ⟨G, x, dt, t, hr, (C90_touchdownToLiftoff exSlip exGradOde _ exGradOde_smooth G x dt t hr hv).1⟩

example : ∃ G, exSlip.apexToApexGrad exGradOde ![0, 4.5, 0] 0 = some G ∧
    DerivOf (fun w : (Fin 3 → ℝ) × ℝ => (exSlip.apexToApexGrad exGradOde w.1 w.2).map (·.x))
      (fun v => G.dxApex *ᵥ v.1 + v.2 • G.dxLeg) (![0, 4.5, 0], 0) := by
  obtain ⟨G, hG, h1, h2⟩ := exApexGrad
  refine ⟨G, hG, (C90_apexToApex exSlip (by norm_num [exSlip]) exGradOde _ _ (by simp [exSlip]; norm_num) G hG ?_ ?_ ?_).1⟩
  · rw [h1, exTd]
    exact exGradOde_smooth
  · rw [h1, exTd, exGradOde_x0]
    rintro r ⟨⟩
    simp
  · rw [h2]
    simp

/-- A stone of height 1/2 from -1 to 1, and the apex 5: the approximation has four rows. -/
example : ∃ R, exSlip.apexLinear exGradOde ![0, 5, 0] ⟨((-1 : ℝ) : EReal), ((1 : ℝ) : EReal), 1 / 2⟩ 0 = some R ∧
    R.rows.length = 4 ∧ FirstOrder (fun w => (overStone exSlip exGradOde ⟨((-1 : ℝ) : EReal), ((1 : ℝ) : EReal), 1 / 2⟩ w).map
      fun G => G.x + ![0, 1 / 2, 0]) (fun w => R.A *ᵥ w.1 + w.2 • R.B + R.c) (![0, 5, 0], 0) := by
  obtain ⟨G, hG, h1, h2⟩ := exApexGrad
  have e : (![(![0, 5, 0] : Fin 3 → ℝ) 0, (![0, 5, 0] : Fin 3 → ℝ) 1 - 1 / 2, (![0, 5, 0] : Fin 3 → ℝ) 2] : Fin 3 → ℝ) =
      ![0, 4.5, 0] := by
    ext i; fin_cases i <;> simp; norm_num
  have hc : exSlip.canTouch ![(![0, 5, 0] : Fin 3 → ℝ) 0, (![0, 5, 0] : Fin 3 → ℝ) 1, (![0, 5, 0] : Fin 3 → ℝ) 2, 0]
      ⟨((-1 : ℝ) : EReal), ((1 : ℝ) : EReal), 1 / 2⟩ 0 := by
    unfold Slip.canTouch Slip.timeToTouchdown
    simp only
    rw [if_neg (by simp [exSlip]; norm_num), if_pos]
    · rfl
    · constructor
      · rw [ge_iff_le, EReal.coe_le_coe_iff]
        simp
      · rw [EReal.coe_le_coe_iff]
        simp
  have hs : ∃ R, exSlip.apexLinear exGradOde ![0, 5, 0] ⟨((-1 : ℝ) : EReal), ((1 : ℝ) : EReal), 1 / 2⟩ 0 = some R ∧
      R.rows.length = 4 := by
    unfold Slip.apexLinear
    rw [if_pos hc]
    simp only [e, hG, Option.bind_eq_bind, Option.bind_some]
    exact ⟨_, rfl, by rw [if_neg (EReal.coe_ne_bot _), if_neg (EReal.coe_ne_top _)]; rfl⟩
  obtain ⟨R, hR, hl⟩ := hs
  refine ⟨R, hR, hl, (C91_firstOrder exSlip (by norm_num [exSlip]) exGradOde _ _ _ R hR (by simp [foot, exSlip]; norm_num) G
    (by unfold overStone; rw [e]; exact hG) ?_ ?_ ?_).1⟩
  · rw [h1, exTd]
    exact exGradOde_smooth
  · rw [h1, exTd, exGradOde_x0]
    rintro r ⟨⟩
    simp
  · rw [h2]
    simp

end NNL.Props
