import Verif.Props.SlipGrad
import Verif.Lemmas.EventTime
import Verif.Lemmas.Variational
import Mathlib.Analysis.Calculus.Deriv.Prod

/-!
# C90: the gradients of the spring loaded inverted pendulum with an exact integrator
-/

namespace NNL.Props

open Real Matrix NNL.Model NNL.Spec Topology Set

/-- Near `x0` the integrator is exact: from `y` it follows the motion of `stance_dynamics` to the first time at which the leg
reaches its rest length from below; from `x0` it returns also the solution of `gradient_dynamics` which starts at the identity.
The motions go on a little after lift-off, and the leg length of the one from `x0` stays positive. -/
def ExactLiftoff (P : Slip) (ode : Slip.GradOde) (x0 : Fin 5 → ℝ) : Prop :=
  ∃ (φ : ℝ → (Fin 5 → ℝ) → Fin 5 → ℝ) (τ : (Fin 5 → ℝ) → ℝ) (Φ : ℝ → Matrix (Fin 5) (Fin 5) ℝ) (T : ℝ), τ x0 < T ∧
    (∀ᶠ y in 𝓝 x0, φ 0 y = y ∧
      (∀ t ∈ Icc 0 T, ∀ i, HasDerivWithinAt (fun s => φ s y i) (P.stance (φ t y) i) (Icc 0 T) t) ∧
      FirstUp (fun t => φ t y 0) P.l0 (τ y) ∧ ∃ Ψ, ode y = some (φ (τ y) y, Ψ, τ y)) ∧
    (∀ t ∈ Icc 0 T, 0 < φ t x0 0) ∧ Φ 0 = 1 ∧
    (∀ t ∈ Icc 0 T, ∀ i j, HasDerivWithinAt (fun s => Φ s i j) ((P.gradDynamics (φ t x0, Φ t)).2 i j) (Icc 0 T) t) ∧
    ode x0 = some (φ (τ x0) x0, Φ (τ x0), τ x0)

/-- The linear map of a matrix. -/
noncomputable def matCLM : Matrix (Fin 5) (Fin 5) ℝ →ₗ[ℝ] ((Fin 5 → ℝ) →L[ℝ] (Fin 5 → ℝ)) :=
  (LinearMap.toContinuousLinearMap (𝕜 := ℝ) (E := Fin 5 → ℝ) (F' := Fin 5 → ℝ)).toLinearMap ∘ₗ (Matrix.toLin' (R := ℝ)).toLinearMap

theorem matCLM_apply (A : Matrix (Fin 5) (Fin 5) ℝ) (v : Fin 5 → ℝ) : matCLM A v = A *ᵥ v := by
  simp [matCLM]

theorem matCLM_eq (A : Matrix (Fin 5) (Fin 5) ℝ) : matCLM A = LinearMap.toContinuousLinearMap A.mulVecLin := by
  ext1 v
  simp [matCLM_apply]

theorem stanceGrad_continuousOn (P : Slip) : ContinuousOn P.stanceGrad {x | 0 < x 0} := by
  have c (i : Fin 5) : ContinuousOn (fun x : Fin 5 → ℝ => x i) {x | 0 < x 0} := (continuous_apply i).continuousOn
  have hs : ContinuousOn (fun x : Fin 5 → ℝ => sin (x 1)) {x | 0 < x 0} := continuous_sin.comp_continuousOn (c 1)
  have hc : ContinuousOn (fun x : Fin 5 → ℝ => cos (x 1)) {x | 0 < x 0} := continuous_cos.comp_continuousOn (c 1)
  have hne : ∀ x ∈ {x : Fin 5 → ℝ | 0 < x 0}, x 0 ≠ 0 := fun x hx => (show 0 < x 0 from hx).ne'
  have k (a : ℝ) : ContinuousOn (fun _ : Fin 5 → ℝ => a) {x | 0 < x 0} := continuousOn_const
  refine continuousOn_pi.2 fun i => continuousOn_pi.2 fun j => ?_
  fin_cases i <;> fin_cases j <;> simp only [Slip.stanceGrad] <;> first
    | exact k _
    | exact (k _).add ((c 3).pow 2)
    | exact (k _).mul hs
    | exact ((k _).mul (c 0)).mul (c 3)
    | exact ((((k _).mul hs).sub (((k _).mul (c 2)).mul (c 3))).neg).div ((c 0).pow 2) fun x hx => pow_ne_zero 2 (hne x hx)
    | exact ((k _).div (c 0) hne).mul hc
    | exact ((k _).mul (c 3)).div (c 0) hne
    | exact ((k _).mul (c 2)).div (c 0) hne

/-- C90. The hypothesis `SmoothLiftoff` holds for an exact integrator, if the leg is compressed at first and extends at
lift-off: the matrix which `touchdown_to_liftoff_gradient` integrates is the derivative of the motion, and the time of lift-off
depends continuously on the start. -/
theorem C90_exact (P : Slip) (ode : Slip.GradOde) (x0 : Fin 5 → ℝ) (ho : ExactLiftoff P ode x0) (h0 : x0 0 ≤ P.l0)
    (hdown : x0 2 < 0) (hup : ∀ r ∈ ode x0, 0 < r.1 2) : SmoothLiftoff P ode x0 := by
  obtain ⟨φ, τ, Φ, T, hT, hnear, hpos, hΦ0, hΦ, hx0⟩ := ho
  obtain ⟨i0, hX, hfu, -⟩ := hnear.self_of_nhds
  have hτ0 : 0 < τ x0 := hfu.1
  have hU : IsOpen {x : Fin 5 → ℝ | 0 < x 0} := isOpen_lt continuous_const (continuous_apply 0)
  have hf : ∀ x ∈ {x : Fin 5 → ℝ | 0 < x 0}, HasFDerivAt P.stance (matCLM (P.stanceGrad x)) x := by
    intro x hx
    rw [matCLM_eq]
    exact C90_stance P x (show 0 < x 0 from hx).ne'
  have hJ : ContinuousOn (fun x => matCLM (P.stanceGrad x)) {x : Fin 5 → ℝ | 0 < x 0} :=
    (LinearMap.continuous_of_finiteDimensional matCLM).comp_continuousOn (stanceGrad_continuousOn P)
  have hmot : ∀ᶠ y in 𝓝 x0, φ 0 y = y ∧
      ∀ t ∈ Icc 0 T, HasDerivWithinAt (fun s => φ s y) (P.stance (φ t y)) (Icc 0 T) t := by
    filter_upwards [hnear] with y hy
    exact ⟨hy.1, fun t ht => hasDerivWithinAt_pi.2 fun i => hy.2.1 t ht i⟩
  have hM0 : matCLM (Φ 0) = ContinuousLinearMap.id ℝ (Fin 5 → ℝ) := by
    ext1 v
    rw [hΦ0, matCLM_apply, one_mulVec]
    rfl
  have hM : ∀ t ∈ Icc 0 T, HasDerivWithinAt (fun s => matCLM (Φ s))
      ((matCLM (P.stanceGrad (φ t x0))).comp (matCLM (Φ t))) (Icc 0 T) t := by
    intro t ht
    have hsum : ∀ A : Matrix (Fin 5) (Fin 5) ℝ, matCLM A = ∑ i, ∑ j, A i j • matCLM (Matrix.single i j 1) := by
      intro A
      conv_lhs => rw [Matrix.matrix_eq_sum_single A]
      simp only [map_sum]
      refine Finset.sum_congr rfl fun i _ => Finset.sum_congr rfl fun j _ => ?_
      rw [← map_smul, Matrix.smul_single, smul_eq_mul, mul_one]
    have h1 : HasDerivWithinAt (fun s => ∑ i, ∑ j, Φ s i j • matCLM (Matrix.single i j 1))
        (∑ i, ∑ j, (P.stanceGrad (φ t x0) * Φ t) i j • matCLM (Matrix.single i j 1)) (Icc 0 T) t :=
      HasDerivWithinAt.fun_sum fun i _ => HasDerivWithinAt.fun_sum fun j _ => by
        have h := (hΦ t ht i j).smul_const (matCLM (Matrix.single i j 1))
        exact h
    rw [← hsum] at h1
    have e : matCLM (P.stanceGrad (φ t x0) * Φ t) = (matCLM (P.stanceGrad (φ t x0))).comp (matCLM (Φ t)) := by
      ext1 v
      simp [matCLM_apply, mulVec_mulVec]
    rw [e] at h1
    exact h1.congr (fun s _ => hsum _) (hsum _)
  have hT0 : 0 ≤ T := (hτ0.trans hT).le
  obtain ⟨K, hst, -⟩ := variational hU hf hJ hT0 hmot hpos hM0 hM
  have hunif : ∀ i, ∀ ε > 0, ∀ᶠ y in 𝓝 x0, ∀ t ∈ Icc 0 T, |φ t y i - φ t x0 i| < ε := by
    intro i ε hε
    have : ∀ᶠ y in 𝓝 x0, dist y x0 < ε / Real.exp (K * T) := Metric.ball_mem_nhds x0 (by positivity)
    filter_upwards [hst, this] with y hy hd t ht
    rw [lt_div_iff₀ (Real.exp_pos _)] at hd
    rw [← Real.dist_eq]
    exact ((dist_le_pi_dist _ _ i).trans (hy t ht)).trans_lt hd
  have hτc : ContinuousAt τ x0 := by
    refine event_continuous (r := fun t y => φ t y 0) (rd := fun t y => φ t y 2) (l := P.l0) hT (hunif 0) (hunif 2) ?_ ?_ ?_ ?_
      ?_ ?_
    · filter_upwards [hnear] with y hy t ht
      exact hy.2.1 t ht 0
    · exact fun t ht => (hX t ht 2).continuousWithinAt
    · simpa [i0] using h0
    · simpa [i0] using hdown
    · exact hup _ hx0
    · filter_upwards [hnear] with y hy
      exact hy.2.2.1
  refine ⟨φ, τ, Φ (τ x0), _, ?_, hx0, hτc, variational_joint hU hf hJ hmot hpos hM0 hM ⟨hτ0, hT⟩, fun s v => ?_⟩
  · filter_upwards [hnear] with y hy
    exact ⟨hy.2.2.1.2.1.1, hy.2.2.2⟩
  · simp [matCLM_apply]

/-! ## The hypotheses are met: a leg without spring and gravity -/

namespace FreeLeg

/-- A leg without spring and gravity: the mass moves uniformly. -/
def exFree : Slip := ⟨1, 1, 0, 0⟩

/-- Distance of the mass from the foot, for the start of the example. -/
noncomputable def exR (t : ℝ) : ℝ := √(1 - t + 5 / 4 * t ^ 2)

theorem exR_sq (t : ℝ) : exR t ^ 2 = 1 - t + 5 / 4 * t ^ 2 := Real.sq_sqrt (by nlinarith [sq_nonneg (t - 2 / 5)])

theorem exR_pos (t : ℝ) : 0 < exR t := Real.sqrt_pos.2 (by nlinarith [sq_nonneg (t - 2 / 5)])

theorem exR_deriv (t : ℝ) : HasDerivAt exR ((-1 / 2 + 5 / 4 * t) / exR t) t := by
  have h : HasDerivAt (fun t : ℝ => 1 - t + 5 / 4 * t ^ 2) (-1 + 5 / 4 * (2 * t)) t := by
    have := ((hasDerivAt_id t).const_sub 1).add (((hasDerivAt_id t).pow 2).const_mul (5 / 4))
    refine this.congr_deriv ?_
    simp
  have hne : (1 - t + 5 / 4 * t ^ 2 : ℝ) ≠ 0 := by nlinarith [sq_nonneg (t - 2 / 5)]
  refine (h.sqrt hne).congr_deriv ?_
  have := exR_pos t
  unfold exR at *
  field_simp

theorem ex_quot {p : ℝ → ℝ} {p' t : ℝ} (n : ℕ) (hp : HasDerivAt p p' t) :
    HasDerivAt (fun t => p t / exR t ^ n) (p' / exR t ^ n - n * p t * (-1 / 2 + 5 / 4 * t) / exR t ^ (n + 2)) t := by
  have hr := exR_pos t
  refine (hp.div ((exR_deriv t).pow n) (pow_ne_zero n hr.ne')).congr_deriv ?_
  rcases n with _ | n
  · simp
  · simp only [Nat.add_sub_cancel, Pi.pow_apply]
    field_simp
    ring

/-- The matrix of the derivatives of the motion. -/
noncomputable def exPhi (t : ℝ) : Matrix (Fin 5) (Fin 5) ℝ :=
  let s := -1 / 2 + 5 / 4 * t
  let r := exR t
  !![(1 - t / 2 + t ^ 2) / r ^ 1, 0, ((1 - t / 2) * t) / r ^ 1, t ^ 2 / r ^ 1, 0;
     (-t ^ 2 / 2) / r ^ 2, 1, (-t ^ 2) / r ^ 2, ((1 - t / 2) * t) / r ^ 2, 0;
     (-1 / 2 + 2 * t) / r ^ 1 - s * (1 - t / 2 + t ^ 2) / r ^ 3, 0, (1 - t) / r ^ 1 - s * ((1 - t / 2) * t) / r ^ 3,
       (2 * t) / r ^ 1 - s * t ^ 2 / r ^ 3, 0;
     2 / r ^ 2 - 2 * (1 - t / 2 + t ^ 2) / r ^ 4, 0, -2 * ((1 - t / 2) * t) / r ^ 4, 1 / r ^ 2 - 2 * t ^ 2 / r ^ 4, 0;
     0, 0, 0, 0, 1]

/-- The motion of the example. -/
noncomputable def exX (t : ℝ) : Fin 5 → ℝ :=
  ![exR t, arctan (t / (1 - t / 2)), (-1 / 2 + 5 / 4 * t) / exR t, 1 / exR t ^ 2, 0]

theorem ex_poly (c0 c1 c2 c3 t : ℝ) : HasDerivAt (fun t => c0 + c1 * t + c2 * t ^ 2 + c3 * t ^ 3) (c1 + 2 * c2 * t + 3 * c3 * t ^ 2) t := by
  have := (((hasDerivAt_id t).const_mul c1).const_add c0).add (((hasDerivAt_id t).pow 2).const_mul c2) |>.add (((hasDerivAt_id t).pow 3).const_mul c3)
  refine this.congr_deriv ?_
  simp
  ring

theorem ex_term (c0 c1 c2 c3 : ℝ) (n : ℕ) (t : ℝ) : HasDerivAt (fun t => (c0 + c1 * t + c2 * t ^ 2 + c3 * t ^ 3) / exR t ^ n)
    ((c1 + 2 * c2 * t + 3 * c3 * t ^ 2) / exR t ^ n -
      n * (c0 + c1 * t + c2 * t ^ 2 + c3 * t ^ 3) * (-1 / 2 + 5 / 4 * t) / exR t ^ (n + 2)) t :=
  ex_quot n (ex_poly c0 c1 c2 c3 t)

theorem exPhi_deriv (t : ℝ) (i j : Fin 5) : HasDerivAt (fun s => exPhi s i j) ((exFree.gradDynamics (exX t, exPhi t)).2 i j) t := by
  have hr := exR_pos t
  have hr2 := exR_sq t
  fin_cases j
  · fin_cases i
    · refine ((ex_term (1) (-1/2) (1) (0) 1 t).congr_of_eventuallyEq
          (Filter.Eventually.of_forall fun s => ?_)).congr_deriv ?_
      · simp [exPhi]
        ring
      · simp [Slip.gradDynamics, Slip.stanceGrad, exFree, exX, exPhi]
        field_simp
        grind
    · refine ((ex_term (0) (0) (-1/2) (0) 2 t).congr_of_eventuallyEq
          (Filter.Eventually.of_forall fun s => ?_)).congr_deriv ?_
      · simp [exPhi]
        ring
      · simp [Slip.gradDynamics, Slip.stanceGrad, exFree, exX, exPhi]
        field_simp
        grind
    · refine (((ex_term (-1/2) (2) (0) (0) 1 t).sub (ex_term (-1/2) (5/4+1/4) (-1/2-5/8) (5/4) 3 t)).congr_of_eventuallyEq
          (Filter.Eventually.of_forall fun s => ?_)).congr_deriv ?_
      · simp [exPhi]
        ring
      · simp [Slip.gradDynamics, Slip.stanceGrad, exFree, exX, exPhi]
        field_simp
        grind
    · refine (((ex_term (2) (0) (0) (0) 2 t).sub (ex_term (2) (-1) (2) (0) 4 t)).congr_of_eventuallyEq
          (Filter.Eventually.of_forall fun s => ?_)).congr_deriv ?_
      · simp [exPhi]
        ring
      · simp [Slip.gradDynamics, Slip.stanceGrad, exFree, exX, exPhi]
        field_simp
        grind
    · exact (hasDerivAt_const t (0 : ℝ)).congr_deriv (by simp [Slip.gradDynamics, Slip.stanceGrad, exFree, exX, exPhi])
  · fin_cases i <;> exact (hasDerivAt_const t _).congr_deriv (by simp [Slip.gradDynamics, Slip.stanceGrad, exFree, exX, exPhi])
  · fin_cases i
    · refine ((ex_term (0) (1) (-1/2) (0) 1 t).congr_of_eventuallyEq
          (Filter.Eventually.of_forall fun s => ?_)).congr_deriv ?_
      · simp [exPhi]
        ring
      · simp [Slip.gradDynamics, Slip.stanceGrad, exFree, exX, exPhi]
        field_simp
        grind
    · refine ((ex_term (0) (0) (-1) (0) 2 t).congr_of_eventuallyEq
          (Filter.Eventually.of_forall fun s => ?_)).congr_deriv ?_
      · simp [exPhi]
      · simp [Slip.gradDynamics, Slip.stanceGrad, exFree, exX, exPhi]
        field_simp
        grind
    · refine (((ex_term (1) (-1) (0) (0) 1 t).sub (ex_term (0) (-1/2) (1/4+5/4) (-5/8) 3 t)).congr_of_eventuallyEq
          (Filter.Eventually.of_forall fun s => ?_)).congr_deriv ?_
      · simp [exPhi]
        ring
      · simp [Slip.gradDynamics, Slip.stanceGrad, exFree, exX, exPhi]
        field_simp
        grind
    · refine ((ex_term (0) (-2) (1) (0) 4 t).congr_of_eventuallyEq
          (Filter.Eventually.of_forall fun s => ?_)).congr_deriv ?_
      · simp [exPhi]
        ring
      · simp [Slip.gradDynamics, Slip.stanceGrad, exFree, exX, exPhi]
        field_simp
        grind
    · exact (hasDerivAt_const t (0 : ℝ)).congr_deriv (by simp [Slip.gradDynamics, Slip.stanceGrad, exFree, exX, exPhi])
  · fin_cases i
    · refine ((ex_term (0) (0) (1) (0) 1 t).congr_of_eventuallyEq
          (Filter.Eventually.of_forall fun s => ?_)).congr_deriv ?_
      · simp [exPhi]
      · simp [Slip.gradDynamics, Slip.stanceGrad, exFree, exX, exPhi]
        field_simp
    · refine ((ex_term (0) (1) (-1/2) (0) 2 t).congr_of_eventuallyEq
          (Filter.Eventually.of_forall fun s => ?_)).congr_deriv ?_
      · simp [exPhi]
        ring
      · simp [Slip.gradDynamics, Slip.stanceGrad, exFree, exX, exPhi]
        field_simp
        grind
    · refine (((ex_term (0) (2) (0) (0) 1 t).sub (ex_term (0) (0) (-1/2) (5/4) 3 t)).congr_of_eventuallyEq
          (Filter.Eventually.of_forall fun s => ?_)).congr_deriv ?_
      · simp [exPhi]
        ring
      · simp [Slip.gradDynamics, Slip.stanceGrad, exFree, exX, exPhi]
        field_simp
        grind
    · refine (((ex_term (1) (0) (0) (0) 2 t).sub (ex_term (0) (0) (2) (0) 4 t)).congr_of_eventuallyEq
          (Filter.Eventually.of_forall fun s => ?_)).congr_deriv ?_
      · simp [exPhi]
      · simp [Slip.gradDynamics, Slip.stanceGrad, exFree, exX, exPhi]
        field_simp
        grind
    · exact (hasDerivAt_const t (0 : ℝ)).congr_deriv (by simp [Slip.gradDynamics, Slip.stanceGrad, exFree, exX, exPhi])
  · fin_cases i <;> exact (hasDerivAt_const t _).congr_deriv (by simp [Slip.gradDynamics, Slip.stanceGrad, exFree, exX, exPhi])

/-- The state at the time `t` of the mass which moves uniformly from `y`. -/
noncomputable def exFlow (t : ℝ) (y : Fin 5 → ℝ) : Fin 5 → ℝ :=
  let a := y 0 + y 2 * t
  let b := y 0 * y 3 * t
  let r := √(a ^ 2 + b ^ 2)
  ![r, y 1 + arctan (b / a), (a * y 2 + b * (y 0 * y 3)) / r, y 0 ^ 2 * y 3 / r ^ 2, y 4]

theorem exFlow_deriv (y : Fin 5 → ℝ) {t : ℝ} (ha : 0 < y 0 + y 2 * t) (i : Fin 5) :
    HasDerivAt (fun s => exFlow s y i) (exFree.stance (exFlow t y) i) t := by
  have da : HasDerivAt (fun t => y 0 + y 2 * t) (y 2) t := by simpa using ((hasDerivAt_id t).const_mul (y 2)).const_add (y 0)
  have db : HasDerivAt (fun t => y 0 * y 3 * t) (y 0 * y 3) t := by simpa using (hasDerivAt_id t).const_mul (y 0 * y 3)
  have hq : 0 < (y 0 + y 2 * t) ^ 2 + (y 0 * y 3 * t) ^ 2 := by positivity
  have dr : HasDerivAt (fun t => √((y 0 + y 2 * t) ^ 2 + (y 0 * y 3 * t) ^ 2))
      (((y 0 + y 2 * t) * y 2 + y 0 * y 3 * t * (y 0 * y 3)) / √((y 0 + y 2 * t) ^ 2 + (y 0 * y 3 * t) ^ 2)) t := by
    refine (((da.pow 2).add (db.pow 2)).sqrt hq.ne').congr_deriv ?_
    have := Real.sqrt_pos.2 hq
    simp only [Pi.add_apply, Pi.pow_apply]
    field_simp
    norm_num
    ring
  have hr := Real.sqrt_pos.2 hq
  have hr2 := Real.sq_sqrt hq.le
  have dn := (da.mul_const (y 2)).add (db.mul_const (y 0 * y 3))
  set r := √((y 0 + y 2 * t) ^ 2 + (y 0 * y 3 * t) ^ 2) with hrd
  fin_cases i
  · refine dr.congr_deriv ?_
    simp [Slip.stance, exFlow, ← hrd]
  · refine (((db.div da ha.ne').arctan).const_add (y 1)).congr_deriv ?_
    simp only [Slip.stance, exFlow, exFree]
    simp only [Fin.mk_one, Matrix.cons_val, ← hrd, Pi.div_apply]
    rw [hr2]
    have hq' := hq.ne'
    have : (1 + (y 0 * y 3 * t / (y 0 + y 2 * t)) ^ 2) = ((y 0 + y 2 * t) ^ 2 + (y 0 * y 3 * t) ^ 2) / (y 0 + y 2 * t) ^ 2 := by
      rw [div_pow, eq_div_iff (pow_ne_zero 2 ha.ne'), add_mul, div_mul_cancel₀ _ (pow_ne_zero 2 ha.ne'), one_mul]
    rw [this]
    field_simp
    ring
  · refine (dn.div dr hr.ne').congr_deriv ?_
    simp only [Slip.stance, exFlow, exFree]
    simp [← hrd]
    field_simp
    grind
  · refine ((hasDerivAt_const t (y 0 ^ 2 * y 3)).div (dr.pow 2) (pow_ne_zero 2 hr.ne')).congr_deriv ?_
    simp only [Slip.stance, exFlow, exFree]
    simp [← hrd]
    field_simp
  · refine (hasDerivAt_const t (y 4)).congr_deriv ?_
    simp [Slip.stance]

/-- The time at which the distance of the mass from the foot grows to 1. -/
noncomputable def exTau (y : Fin 5 → ℝ) : ℝ :=
  (-(y 0 * y 2) + √((y 0 * y 2) ^ 2 - (y 2 ^ 2 + (y 0 * y 3) ^ 2) * (y 0 ^ 2 - 1))) / (y 2 ^ 2 + (y 0 * y 3) ^ 2)

theorem exTau_firstUp (y : Fin 5 → ℝ) (hB : y 0 * y 2 < 0)
    (hD : 0 < (y 0 * y 2) ^ 2 - (y 2 ^ 2 + (y 0 * y 3) ^ 2) * (y 0 ^ 2 - 1)) :
    FirstUp (fun t => exFlow t y 0) exFree.l0 (exTau y) := by
  have h2 : y 2 ≠ 0 := by rintro h; simp [h] at hB
  have hC : 0 < y 2 ^ 2 + (y 0 * y 3) ^ 2 := by positivity
  have hs := Real.sqrt_pos.2 hD
  have hs2 := Real.sq_sqrt hD.le
  set D := √((y 0 * y 2) ^ 2 - (y 2 ^ 2 + (y 0 * y 3) ^ 2) * (y 0 ^ 2 - 1)) with hDd
  set C := y 2 ^ 2 + (y 0 * y 3) ^ 2 with hCd
  have hτ : exTau y = (-(y 0 * y 2) + D) / C := rfl
  obtain ⟨σ, hσ⟩ : ∃ σ, σ = (-(y 0 * y 2) - D) / C := ⟨_, rfl⟩
  have hlt : σ < exTau y := by rw [hσ, hτ]; gcongr; linarith
  have hq : ∀ t, (y 0 + y 2 * t) ^ 2 + (y 0 * y 3 * t) ^ 2 - 1 = C * ((t - σ) * (t - exTau y)) := by
    intro t
    rw [hσ, hτ]
    field_simp
    grind
  have hl : exFree.l0 = 1 := rfl
  have hr : ∀ t, exFlow t y 0 = √((y 0 + y 2 * t) ^ 2 + (y 0 * y 3 * t) ^ 2) := fun t => rfl
  have hpos : 0 < exTau y := by rw [hτ]; apply div_pos _ hC; linarith
  have hone : ∀ t, exFlow t y 0 = 1 ↔ (t - σ) * (t - exTau y) = 0 := by
    intro t
    rw [hr, Real.sqrt_eq_one]
    have := hq t
    constructor
    · intro h
      have : C * ((t - σ) * (t - exTau y)) = 0 := by rw [← hq t, h]; ring
      exact (mul_eq_zero.1 this).resolve_left hC.ne'
    · intro h
      rw [h] at this
      linarith
  have hone' : ∀ t, exFlow t y 0 < 1 ↔ (t - σ) * (t - exTau y) < 0 := by
    intro t
    rw [hr, Real.sqrt_lt' one_pos]
    have := hq t
    constructor
    · intro h
      by_contra hc
      have : 0 ≤ C * ((t - σ) * (t - exTau y)) := mul_nonneg hC.le (not_lt.1 hc)
      linarith
    · intro h
      have : C * ((t - σ) * (t - exTau y)) < 0 := mul_neg_of_pos_of_neg hC h
      linarith
  rw [hl]
  refine ⟨hpos, ⟨(hone _).2 (by simp), max 0 σ, ⟨le_max_left _ _, max_lt hpos hlt⟩, fun s hs' => (hone' s).2 ?_⟩, ?_⟩
  · exact mul_neg_of_pos_of_neg (by linarith [le_max_right 0 σ, hs'.1]) (by linarith [hs'.2])
  · rintro t ht ⟨h1, a, ha, h3⟩
    rcases mul_eq_zero.1 ((hone t).1 h1) with h | h
    · have := (hone' ((a + t) / 2)).1 (h3 _ ⟨by linarith [ha.2], by linarith [ha.2]⟩)
      have h4 : (a + t) / 2 - σ < 0 := by linarith [ha.2]
      have h5 : (a + t) / 2 - exTau y < 0 := by linarith [ha.2, ht.2]
      exact absurd this (not_lt.2 (mul_nonneg_of_nonpos_of_nonpos h4.le h5.le))
    · linarith [ht.2]

/-- The start of the example: the leg shortens with the rate 1/2 and turns with the rate 1. -/
noncomputable def exStart : Fin 5 → ℝ := ![1, 0, -1 / 2, 1, 0]

theorem exFlow_start (t : ℝ) : exFlow t exStart = exX t := by
  have h : (1 + -1 / 2 * t) ^ 2 + t ^ 2 = 1 - t + 5 / 4 * t ^ 2 := by ring
  funext i
  fin_cases i
  · simp [exFlow, exStart, exX, exR, h]
  · simp [exFlow, exStart, exX]
    congr 2
    ring
  · simp [exFlow, exStart, exX, exR, h]
    ring
  · simp [exFlow, exStart, exX, exR, h]
  · simp [exFlow, exStart, exX]

theorem exTau_start : exTau exStart = 4 / 5 := by
  have h : √((1 / 2 : ℝ) ^ 2) = 1 / 2 := Real.sqrt_sq (by norm_num)
  have e : ((exStart 0 * exStart 2) ^ 2 - (exStart 2 ^ 2 + (exStart 0 * exStart 3) ^ 2) * (exStart 0 ^ 2 - 1)) = (1 / 2 : ℝ) ^ 2 := by
    simp [exStart]
    norm_num
  rw [exTau, e, h]
  simp [exStart]
  norm_num

/-- An exact integrator of the leg without spring and gravity. -/
noncomputable def exOde : Slip.GradOde := fun y => some (exFlow (exTau y) y, exPhi (4 / 5), exTau y)

theorem exOde_exact : ExactLiftoff exFree exOde exStart := by
  refine ⟨exFlow, exTau, exPhi, 1, by rw [exTau_start]; norm_num, ?_, ?_, ?_, ?_, ?_⟩
  · have c (i : Fin 5) : Continuous fun y : Fin 5 → ℝ => y i := continuous_apply i
    have e1 : ∀ᶠ y in 𝓝 exStart, 0 < y 0 := (c 0).continuousAt.eventually_const_lt (by simp [exStart])
    have e2 : ∀ᶠ y in 𝓝 exStart, 0 < y 0 + y 2 :=
      ((c 0).add (c 2)).continuousAt.eventually_const_lt (by simp [exStart]; norm_num)
    have e3 : ∀ᶠ y in 𝓝 exStart, y 0 * y 2 < 0 :=
      ((c 0).mul (c 2)).continuousAt.eventually_lt_const (by simp [exStart]; norm_num)
    have e4 : ∀ᶠ y in 𝓝 exStart, 0 < (y 0 * y 2) ^ 2 - (y 2 ^ 2 + (y 0 * y 3) ^ 2) * (y 0 ^ 2 - 1) :=
      ((((c 0).mul (c 2)).pow 2).sub ((((c 2).pow 2).add (((c 0).mul (c 3)).pow 2)).mul (((c 0).pow 2).sub
        continuous_const))).continuousAt.eventually_const_lt (by simp [exStart]; norm_num)
    filter_upwards [e1, e2, e3, e4] with y h1 h2 h3 h4
    refine ⟨?_, fun t ht i => (exFlow_deriv y ?_ i).hasDerivWithinAt, exTau_firstUp y h3 h4, exPhi (4 / 5), rfl⟩
    · funext i
      fin_cases i <;> simp [exFlow, Real.sqrt_sq h1.le]
      · field_simp
      · field_simp
    · nlinarith [ht.1, ht.2, mul_nonneg ht.1 h2.le, mul_nonneg (sub_nonneg.2 ht.2) h1.le]
  · intro t _
    rw [exFlow_start]
    exact exR_pos t
  · have : exR 0 = 1 := by simp [exR]
    ext i j
    fin_cases i <;> fin_cases j <;> simp [exPhi, this]
  · intro t _ i j
    rw [exFlow_start]
    exact (exPhi_deriv t i j).hasDerivWithinAt
  · simp [exOde, exTau_start]

example : SmoothLiftoff exFree exOde exStart := by
  refine C90_exact exFree exOde exStart exOde_exact (by simp [exStart, exFree]) (by simp [exStart]; norm_num) ?_
  simp only [exOde, Option.mem_def, Option.some.injEq]
  rintro r rfl
  simp only [exTau_start, exFlow_start]
  exact div_pos (by norm_num) (exR_pos _)

end FreeLeg

end NNL.Props
