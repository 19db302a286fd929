import Verif.Props.Physics
import Verif.Spec.Physics

/-!
# C86, C87: the physical models obey the laws of mechanics
-/

namespace NNL.Props

open Real Matrix NNL.Model NNL.Spec

/-- C86. Power balance of the pendulum: along every trajectory the energy changes by the power of the torque and of the
damping. -/
theorem C86_pendulum_power (P : Pendulum) (hm : P.mass ≠ 0) (hl : P.length ≠ 0) (X : ℝ → Fin 2 → ℝ) (U : ℝ → Fin 1 → ℝ)
    (hX : Trajectory P.dyn X U) (t : ℝ) :
    HasDerivAt (fun s => P.potential (X s) + P.kinetic (X s)) (X t 1 * (U t 0 - P.damping * X t 1)) t := by
  have h0 := hX t 0
  have h1 := hX t 1
  simp only [Pendulum.potential, Pendulum.kinetic]
  refine ((h0.cos.const_mul (-P.mass * P.gravity * P.length)).add
    (((h1.const_mul P.length).pow 2).const_mul (0.5 * P.mass))).congr_deriv ?_
  simp [Pendulum.dyn]
  field_simp
  ring

/-- C86. Under `energy_shaping_control`, while the pendulum moves, the error of the energy decays with rate
`gain * thetadot ^ 2`, up to the power of the damping. -/
theorem C86_pendulum_shaping (P : Pendulum) (hm : P.mass ≠ 0) (hl : P.length ≠ 0) (X : ℝ → Fin 2 → ℝ) (xd : Fin 2 → ℝ)
    (gain : ℝ) (hX : Trajectory P.dyn X fun t => P.shaping (X t) xd gain) (t : ℝ) (ht : X t 1 ≠ 0) :
    HasDerivAt (fun s => P.potential (X s) + P.kinetic (X s) - (P.potential xd + P.kinetic xd))
      (-gain * X t 1 ^ 2 * (P.potential (X t) + P.kinetic (X t) - (P.potential xd + P.kinetic xd)) -
        P.damping * X t 1 ^ 2) t := by
  refine ((C86_pendulum_power P hm hl X _ hX t).sub_const _).congr_deriv ?_
  simp [Pendulum.shaping, ht]
  ring

/-- C86. The lower and the upper position of the pendulum are equilibria without torque. -/
theorem C86_pendulum_equilibria (P : Pendulum) : P.dyn ![0, 0] 0 = 0 ∧ P.dyn ![π, 0] 0 = 0 := by
  constructor <;> ext i <;> fin_cases i <;> simp [Pendulum.dyn]

/-- C86. With `u_equilibrium` the planar quadrotor hovers at every position. -/
theorem C86_quadrotor2d_hover (P : Planar) (hm : P.mass ≠ 0) (px pz : ℝ) :
    P.quadDyn ![px, pz, 0, 0, 0, 0] P.quadHover = 0 := by
  ext i
  fin_cases i <;> simp [Planar.quadDyn, Planar.quadHover]
  field_simp
  ring

/-- C86. With `hover_thrust` along the rocket both rocket models hover at every position. -/
theorem C86_rocket_hover (P : Planar) (hm : P.mass ≠ 0) (px pz : ℝ) :
    P.rocketDyn ![px, pz, 0, 0, 0, 0] ![0, P.hoverThrust] = 0 ∧
      P.rocket2Dyn ![px, pz, 0, 0, 0, 0] ![0, P.hoverThrust] = 0 := by
  constructor <;> ext i <;> fin_cases i <;> simp [Planar.rocketDyn, Planar.rocket2Dyn, Planar.hoverThrust, hm]

/-- C86. The trajectories of `Rocket2` are the motions of the bottom of the rocket in the trajectories of `Rocket`. -/
theorem C86_rocket_bottom (P : Planar) (X : ℝ → Fin 6 → ℝ) (U : ℝ → Fin 2 → ℝ) :
    Trajectory P.rocketDyn X U ↔ Trajectory P.rocket2Dyn (fun t => rodBottom P.length (X t)) U := by
  constructor
  · intro h t i
    have h0 := h t 0
    have h1 := h t 1
    have h2 := h t 2
    have h3 := h t 3
    have h4 := h t 4
    have h5 := h t 5
    fin_cases i
    · exact (h0.add (h2.sin.const_mul (P.length / 2))).congr_deriv (by simp [Planar.rocketDyn, Planar.rocket2Dyn, rodBottom])
    · exact (h1.sub (h2.cos.const_mul (P.length / 2))).congr_deriv (by
        simp [Planar.rocketDyn, Planar.rocket2Dyn, rodBottom])
    · exact h2.congr_deriv (by simp [Planar.rocketDyn, Planar.rocket2Dyn, rodBottom])
    · exact (h3.add ((h2.cos.mul h5).const_mul (P.length / 2))).congr_deriv (by
        simp [Planar.rocketDyn, Planar.rocket2Dyn, rodBottom]; left; ring)
    · exact (h4.add ((h2.sin.mul h5).const_mul (P.length / 2))).congr_deriv (by
        simp [Planar.rocketDyn, Planar.rocket2Dyn, rodBottom]; ring)
    · exact h5.congr_deriv (by simp [Planar.rocketDyn, Planar.rocket2Dyn, rodBottom]; ring)
  · intro h t i
    have h0 := h t 0
    have h1 := h t 1
    have h2 : HasDerivAt (fun s => X s 2) (X t 5) t := (h t 2).congr_deriv (by simp [Planar.rocket2Dyn, rodBottom])
    have h3 := h t 3
    have h4 := h t 4
    have h5 : HasDerivAt (fun s => X s 5) (P.length * U t 0 / (2 * P.inertia)) t :=
      (h t 5).congr_deriv (by simp [Planar.rocket2Dyn])
    fin_cases i
    · refine ((h0.sub (h2.sin.const_mul (P.length / 2))).congr_of_eventuallyEq (.of_forall fun s => ?_)).congr_deriv ?_
      · simp [rodBottom]
      · simp [Planar.rocketDyn, Planar.rocket2Dyn, rodBottom]
    · refine ((h1.add (h2.cos.const_mul (P.length / 2))).congr_of_eventuallyEq (.of_forall fun s => ?_)).congr_deriv ?_
      · simp [rodBottom]
      · simp [Planar.rocketDyn, Planar.rocket2Dyn, rodBottom]
    · exact h2.congr_deriv (by simp [Planar.rocketDyn])
    · refine ((h3.sub ((h2.cos.mul h5).const_mul (P.length / 2))).congr_of_eventuallyEq
        (.of_forall fun s => ?_)).congr_deriv ?_
      · simp [rodBottom]
      · simp [Planar.rocketDyn, Planar.rocket2Dyn, rodBottom]; ring
    · refine ((h4.sub ((h2.sin.mul h5).const_mul (P.length / 2))).congr_of_eventuallyEq
        (.of_forall fun s => ?_)).congr_deriv ?_
      · simp [rodBottom]
      · simp [Planar.rocketDyn, Planar.rocket2Dyn, rodBottom]; ring
    · exact h5.congr_deriv (by simp [Planar.rocketDyn]; ring)

/-- C86. The wheels of the unicycle roll without slipping: the velocity is along the heading. -/
theorem C86_unicycle (x : Fin 3 → ℝ) (u : Fin 2 → ℝ) :
    -sin (x 2) * unicycleDyn x u 0 + cos (x 2) * unicycleDyn x u 1 = 0 ∧
      cos (x 2) * unicycleDyn x u 0 + sin (x 2) * unicycleDyn x u 1 = u 0 ∧ unicycleDyn x u 2 = u 1 := by
  have := sin_sq_add_cos_sq (x 2)
  refine ⟨?_, ?_, ?_⟩ <;> simp [unicycleDyn]
  · ring
  · linear_combination u 0 * this

/-- C86. The same for the car with acceleration, for arrays. -/
theorem C86_accCar (x : Fin 4 → ℝ) (u : Fin 2 → ℝ) :
    -sin (x 2) * accCarDynNp x u 0 + cos (x 2) * accCarDynNp x u 1 = 0 ∧
      cos (x 2) * accCarDynNp x u 0 + sin (x 2) * accCarDynNp x u 1 = x 3 ∧
      accCarDynNp x u 2 = u 0 ∧ accCarDynNp x u 3 = u 1 := by
  have := sin_sq_add_cos_sq (x 2)
  refine ⟨?_, ?_, ?_, ?_⟩ <;> simp [accCarDynNp]
  · ring
  · linear_combination x 3 * this

/-- C86 (the code disagrees). For tensors `AccelerationCar.dynamics` raises on every state. -/
theorem C86_accCar_tensor_raises (x : Fin 4 → ℝ) (u : Fin 2 → ℝ) : accCarDynTorch x u = none := by
  simp [accCarDynTorch, torchCat]

/-- C86. The torques of the quadrotor are those of the forces at its propellers. -/
theorem C86_quadrotor_wrench (P : Quad3) (u : Fin 4 → ℝ) :
    P.plant u 0 = ∑ i, u i ∧ ![P.plant u 1, P.plant u 2, P.plant u 3] = rotorTorque P.arm P.zFactor u := by
  refine ⟨?_, ?_⟩
  · simp [Quad3.plant, Matrix.mulVec, dotProduct, Fin.sum_univ_succ]
  · ext i
    fin_cases i <;>
      simp [Quad3.plant, Matrix.mulVec, dotProduct, Fin.sum_univ_succ, rotorTorque, propeller, crossProduct]
    ring

/-- C86. With four times `hover_thrust` the quadrotor hovers at every position and yaw. -/
theorem C86_quadrotor_hover (P : Quad3) (hm : P.mass ≠ 0) (hh : P.hover = P.mass * P.gravity / 4) (px py pz yaw : ℝ) :
    P.dynNp ![px, py, pz, 0, 0, yaw, 0, 0, 0, 0, 0, 0] (fun _ => P.hover) = 0 := by
  rw [quad3_eq]
  ext i
  fin_cases i <;> simp [hh]
  field_simp
  ring

theorem rot_v (r p y : ℝ) (v : Fin 3 → ℝ) : rpy2rotmatNp r p y *ᵥ v =
    ![cos y * cos p * v 0 + (cos y * sin p * sin r - sin y * cos r) * v 1 + (cos y * sin p * cos r + sin y * sin r) * v 2,
      sin y * cos p * v 0 + (sin y * sin p * sin r + cos y * cos r) * v 1 + (sin y * sin p * cos r - cos y * sin r) * v 2,
      -sin p * v 0 + cos p * sin r * v 1 + cos p * cos r * v 2] := by
  ext i
  fin_cases i <;> simp [rpy2rotmatNp, Matrix.mulVec, dotProduct, Fin.sum_univ_succ] <;> ring

/-- Rates of the angles and the angular velocity of the body frame. -/
theorem rot_rates {r p y : ℝ → ℝ} {a b c t : ℝ} (hr : HasDerivAt r c t) (hp : HasDerivAt p b t) (hy : HasDerivAt y a t)
    (v : Fin 3 → ℝ) (i : Fin 3) :
    HasDerivAt (fun s => (rpy2rotmatNp (r s) (p s) (y s) *ᵥ v) i)
      ((rpy2rotmatNp (r t) (p t) (y t) *ᵥ crossProduct ![c - sin (p t) * a, cos (r t) * b + sin (r t) * cos (p t) * a,
        -sin (r t) * b + cos (r t) * cos (p t) * a] v) i) t := by
  have er : sin (r t) ^ 2 = 1 - cos (r t) ^ 2 := sin_sq _
  have ep : sin (p t) ^ 2 = 1 - cos (p t) ^ 2 := sin_sq _
  have sr := hr.sin
  have cr := hr.cos
  have sp := hp.sin
  have cp := hp.cos
  have sy := hy.sin
  have cy := hy.cos
  simp only [rot_v]
  fin_cases i
  · refine ((((cy.mul cp).mul_const (v 0)).add ((((cy.mul sp).mul sr).sub (sy.mul cr)).mul_const (v 1))).add
      ((((cy.mul sp).mul cr).add (sy.mul sr)).mul_const (v 2))).congr_deriv ?_
    simp [crossProduct]
    ring_nf
    simp only [er, ep]
    ring
  · refine ((((sy.mul cp).mul_const (v 0)).add ((((sy.mul sp).mul sr).add (cy.mul cr)).mul_const (v 1))).add
      ((((sy.mul sp).mul cr).sub (cy.mul sr)).mul_const (v 2))).congr_deriv ?_
    simp [crossProduct]
    ring_nf
    simp only [er, ep]
    ring
  · refine (((sp.neg.mul_const (v 0)).add ((cp.mul sr).mul_const (v 1))).add
      ((cp.mul cr).mul_const (v 2))).congr_deriv ?_
    simp [crossProduct]
    ring_nf
    simp only [er]
    ring

/-- C86. The rates of roll, pitch and yaw belong to the angular velocity: along every trajectory the rotation matrix turns
with the angular velocity `ω` of the body frame, `d/dt (R v) = R (ω × v)`. -/
theorem C86_quadrotor_rotation (P : Quad3) (X : ℝ → Fin 12 → ℝ) (U : ℝ → Fin 4 → ℝ) (hX : Trajectory P.dynNp X U) (t : ℝ)
    (hc : cos (X t 4) ≠ 0) (v : Fin 3 → ℝ) (i : Fin 3) :
    HasDerivAt (fun s => (rpy2rotmatNp (X s 3) (X s 4) (X s 5) *ᵥ v) i)
      ((rpy2rotmatNp (X t 3) (X t 4) (X t 5) *ᵥ crossProduct ![X t 9, X t 10, X t 11] v) i) t := by
  have h3 := hX t 3
  have h4 := hX t 4
  have h5 := hX t 5
  have er := sin_sq_add_cos_sq (X t 3)
  have ht : tan (X t 4) * cos (X t 4) = sin (X t 4) := tan_mul_cos hc
  refine (rot_rates h3 h4 h5 v i).congr_deriv ?_
  have hw : ![P.dynNp (X t) (U t) 3 - sin (X t 4) * P.dynNp (X t) (U t) 5,
      cos (X t 3) * P.dynNp (X t) (U t) 4 + sin (X t 3) * cos (X t 4) * P.dynNp (X t) (U t) 5,
      -sin (X t 3) * P.dynNp (X t) (U t) 4 + cos (X t 3) * cos (X t 4) * P.dynNp (X t) (U t) 5] =
      ![X t 9, X t 10, X t 11] := by
    rw [quad3_eq]
    ext j
    fin_cases j
    · simp
      field_simp
      rw [← ht]
      ring
    · simp
      field_simp
      linear_combination (X t 10) * er
    · simp
      field_simp
      linear_combination (X t 11) * er
  rw [hw]

theorem mulVec_three (A : Mat3) (v : Fin 3 → ℝ) (i : Fin 3) :
    (A *ᵥ v) i = (A *ᵥ ![1, 0, 0]) i * v 0 + (A *ᵥ ![0, 1, 0]) i * v 1 + (A *ᵥ ![0, 0, 1]) i * v 2 := by
  simp [Matrix.mulVec, dotProduct, Fin.sum_univ_three]

/-- C86. Newton's and Euler's laws, in the world frame: along every trajectory the momentum of the quadrotor changes by
gravity and the thrust along its axis, and its angular momentum by the torque of the propellers. -/
theorem C86_quadrotor_newton (P : Quad3) (hm : P.mass ≠ 0) (hI : ∀ i, P.inertia i ≠ 0) (X : ℝ → Fin 12 → ℝ)
    (U : ℝ → Fin 4 → ℝ) (hX : Trajectory P.dynNp X U) (t : ℝ) (hc : cos (X t 4) ≠ 0) (i : Fin 3) :
    HasDerivAt (fun s => X s (i.castLE (by decide))) (![X t 6, X t 7, X t 8] i) t ∧
      HasDerivAt (fun s => P.mass * ![X s 6, X s 7, X s 8] i)
        ((![0, 0, -(P.mass * P.gravity)] + rpy2rotmatNp (X t 3) (X t 4) (X t 5) *ᵥ ![0, 0, ∑ k, U t k]) i) t ∧
      HasDerivAt (fun s => (rpy2rotmatNp (X s 3) (X s 4) (X s 5) *ᵥ (P.inertia * ![X s 9, X s 10, X s 11])) i)
        ((rpy2rotmatNp (X t 3) (X t 4) (X t 5) *ᵥ rotorTorque P.arm P.zFactor (U t)) i) t := by
  refine ⟨?_, ?_, ?_⟩
  · fin_cases i
    · exact (hX t 0).congr_deriv (by simp [quad3_eq])
    · exact (hX t 1).congr_deriv (by simp [quad3_eq])
    · exact (hX t 2).congr_deriv (by simp [quad3_eq])
  · rw [rot_e3]
    fin_cases i
    · exact ((hX t 6).const_mul P.mass).congr_deriv (by simp [quad3_eq, Fin.sum_univ_succ]; field_simp; ring)
    · exact ((hX t 7).const_mul P.mass).congr_deriv (by simp [quad3_eq, Fin.sum_univ_succ]; field_simp; ring)
    · exact ((hX t 8).const_mul P.mass).congr_deriv (by simp [quad3_eq, Fin.sum_univ_succ]; field_simp; ring)
  · set V : ℝ → Fin 3 → ℝ := fun s => P.inertia * ![X s 9, X s 10, X s 11] with hV
    set R := rpy2rotmatNp (X t 3) (X t 4) (X t 5) with hR
    have d9 : HasDerivAt (fun s => V s 0) (P.inertia 0 * P.dynNp (X t) (U t) 9) t := (hX t 9).const_mul _
    have d10 : HasDerivAt (fun s => V s 1) (P.inertia 1 * P.dynNp (X t) (U t) 10) t := (hX t 10).const_mul _
    have d11 : HasDerivAt (fun s => V s 2) (P.inertia 2 * P.dynNp (X t) (U t) 11) t := (hX t 11).const_mul _
    have r := fun v => C86_quadrotor_rotation P X U hX t hc v i
    have e : (fun s => (rpy2rotmatNp (X s 3) (X s 4) (X s 5) *ᵥ V s) i) = fun s =>
        (rpy2rotmatNp (X s 3) (X s 4) (X s 5) *ᵥ ![1, 0, 0]) i * V s 0 +
        (rpy2rotmatNp (X s 3) (X s 4) (X s 5) *ᵥ ![0, 1, 0]) i * V s 1 +
        (rpy2rotmatNp (X s 3) (X s 4) (X s 5) *ᵥ ![0, 0, 1]) i * V s 2 := funext fun s => mulVec_three _ _ _
    rw [e]
    refine ((((r ![1, 0, 0]).mul d9).add ((r ![0, 1, 0]).mul d10)).add ((r ![0, 0, 1]).mul d11)).congr_deriv ?_
    have f9 : P.inertia 0 * P.dynNp (X t) (U t) 9 =
        (P.inertia 1 - P.inertia 2) * (X t 10 * X t 11) + P.arm * (U t 1 - U t 3) := by
      rw [quad3_eq]; exact mul_div_cancel₀ _ (hI 0)
    have f10 : P.inertia 1 * P.dynNp (X t) (U t) 10 =
        (P.inertia 2 - P.inertia 0) * (X t 9 * X t 11) + P.arm * (U t 2 - U t 0) := by
      rw [quad3_eq]; exact mul_div_cancel₀ _ (hI 1)
    have f11 : P.inertia 2 * P.dynNp (X t) (U t) 11 =
        (P.inertia 0 - P.inertia 1) * (X t 9 * X t 10) + P.zFactor * (U t 0 - U t 1 + U t 2 - U t 3) := by
      rw [quad3_eq]; exact mul_div_cancel₀ _ (hI 2)
    rw [f9, f10, f11]
    have hg : ∀ v : Fin 3 → ℝ, (R *ᵥ v) i = R i 0 * v 0 + R i 1 * v 1 + R i 2 * v 2 := by
      intro v; simp [Matrix.mulVec, dotProduct, Fin.sum_univ_three]
    simp only [← hR, hg, hV]
    simp [crossProduct, rotorTorque, propeller, Fin.sum_univ_succ]
    ring

/-! ## C87: the pole -/

theorem pole_rows (P : PoleDyn) (x : Fin 7 → ℝ) (u : Fin 3 → ℝ) (d : Fin 7 → ℝ) (hd : P.dyn x u = some d) :
    d 0 = x 5 ∧ d 1 = x 6 ∧ P.M x *ᵥ ![d 2, d 3, d 4, d 5, d 6] = ![u 0, u 1, u 2, 0, 0] - P.C x := by
  unfold PoleDyn.dyn at hd
  split at hd
  · cases hd
  · rename_i hdet
    cases hd
    refine ⟨by simp, by simp, ?_⟩
    have e : ∀ w : Fin 5 → ℝ, ![w 0, w 1, w 2, w 3, w 4] = w := by
      intro w; ext i; fin_cases i <;> rfl
    refine (congrArg (P.M x *ᵥ ·) (e ((P.M x)⁻¹ *ᵥ (![u 0, u 1, u 2, 0, 0] - P.C x)))).trans ?_
    rw [Matrix.mulVec_mulVec, Matrix.mul_nonsing_inv _ (isUnit_iff_ne_zero.2 hdet), Matrix.one_mulVec]

/-- C87. `Pole.dynamics` gives the accelerations of Newton's laws exactly when the product of the two offsets and their two
velocities vanishes. -/
theorem C87_newton_iff (P : PoleDyn) (hm : P.mSphere ≠ 0) (x : Fin 7 → ℝ) (u : Fin 3 → ℝ) (d : Fin 7 → ℝ)
    (hx : x 0 ^ 2 + x 1 ^ 2 < P.length ^ 2) (hd : P.dyn x u = some d) :
    (∃ vz az, RodNewton P.mEe P.mSphere P.gravity ![x 0, x 1, √(P.length ^ 2 - x 0 ^ 2 - x 1 ^ 2)] ![x 5, x 6, vz]
      ![d 5, d 6, az] ![d 2, d 3, d 4] u) ↔ x 0 * x 1 * x 5 * x 6 = 0 := by
  obtain ⟨-, -, h⟩ := pole_rows P x u d hd
  have hz2 : P.z x ^ 2 = P.length ^ 2 - x 0 ^ 2 - x 1 ^ 2 := Real.sq_sqrt (by linarith)
  have hz : P.z x ≠ 0 := by
    intro h0
    rw [h0] at hz2
    nlinarith
  have hl : P.length ^ 2 = P.z x ^ 2 + x 0 ^ 2 + x 1 ^ 2 := by linarith
  rw [show √(P.length ^ 2 - x 0 ^ 2 - x 1 ^ 2) = P.z x from rfl]
  have r0 := congrFun h 0
  have r1 := congrFun h 1
  have r2 := congrFun h 2
  have r3 := congrFun h 3
  have r4 := congrFun h 4
  simp [PoleDyn.M, PoleDyn.C, Matrix.mulVec, dotProduct, Fin.sum_univ_succ, hl] at r0 r1 r2 r3 r4
  clear h hd hz2
  generalize P.z x = z at *
  generalize P.mSphere = m at *
  generalize P.mEe = e at *
  generalize P.gravity = g at *
  generalize d 2 = d2 at *
  generalize d 3 = d3 at *
  generalize d 4 = d4 at *
  generalize d 5 = d5 at *
  generalize d 6 = d6 at *
  have r2' : (m + e) * d4 * z ^ 3 - m * z ^ 2 * (x 0 * d5 + x 1 * d6) = (u 2 - (m + e) * g) * z ^ 3 +
      m * (x 5 ^ 2 * (z ^ 2 + x 0 ^ 2) + x 6 ^ 2 * (z ^ 2 + x 1 ^ 2) - 2 * x 0 * x 1 * x 5 * x 6) := by
    field_simp at r2
    linear_combination r2
  have r3' : z ^ 4 * (d2 + d5) = x 0 * (z ^ 3 * (d4 + g) - z ^ 2 * (x 0 * d5 + x 1 * d6) - z ^ 2 * (x 5 ^ 2 + x 6 ^ 2) -
      (x 0 * x 5 + x 1 * x 6) ^ 2) := by
    field_simp at r3
    linear_combination r3
  have r4' : z ^ 4 * (d3 + d6) = x 1 * (z ^ 3 * (d4 + g) - z ^ 2 * (x 0 * d5 + x 1 * d6) - z ^ 2 * (x 5 ^ 2 + x 6 ^ 2) -
      (x 0 * x 5 + x 1 * x 6) ^ 2) := by
    field_simp at r4
    linear_combination r4
  constructor
  · rintro ⟨vz, az, n1, n2, T, hA, hB⟩
    have a2 := congrFun hA 2
    have b2 := congrFun hB 2
    simp [dotProduct, Fin.sum_univ_succ, vecHead, vecTail] at n1 n2 a2 b2
    have h4 : m * (4 * (x 0 * x 1 * x 5 * x 6)) = 0 := by
      linear_combination r2' - z ^ 3 * (a2 + b2) + m * z ^ 2 * n2 - m * (z * vz - (x 0 * x 5 + x 1 * x 6)) * n1
    rcases mul_eq_zero.1 h4 with h | h
    · exact absurd h hm
    · linarith
  · intro h4
    obtain ⟨vz, hvz⟩ : ∃ vz, z * vz = -(x 0 * x 5 + x 1 * x 6) := ⟨-(x 0 * x 5 + x 1 * x 6) / z, by field_simp⟩
    obtain ⟨az, haz⟩ : ∃ az, z * az = -(x 5 ^ 2 + x 6 ^ 2 + vz ^ 2 + (x 0 * d5 + x 1 * d6)) :=
      ⟨-(x 5 ^ 2 + x 6 ^ 2 + vz ^ 2 + (x 0 * d5 + x 1 * d6)) / z, by field_simp⟩
    obtain ⟨T, hT⟩ : ∃ T, z * T = m * (d4 + az + g) := ⟨m * (d4 + az + g) / z, by field_simp⟩
    have hv2 : z ^ 2 * vz ^ 2 = (x 0 * x 5 + x 1 * x 6) ^ 2 := by
      linear_combination (z * vz - (x 0 * x 5 + x 1 * x 6)) * hvz
    have hz3 : z ^ 3 ≠ 0 := pow_ne_zero _ hz
    have hz4 : z ^ 4 ≠ 0 := pow_ne_zero _ hz
    have b0 : m * (d2 + d5) = T * x 0 := mul_left_cancel₀ hz4 (by
      linear_combination m * r3' - x 0 * z ^ 3 * hT - m * x 0 * z ^ 2 * haz + m * x 0 * hv2)
    have b1 : m * (d3 + d6) = T * x 1 := mul_left_cancel₀ hz4 (by
      linear_combination m * r4' - x 1 * z ^ 3 * hT - m * x 1 * z ^ 2 * haz + m * x 1 * hv2)
    have a2 : (m + e) * d4 + m * az + (m + e) * g = u 2 := mul_left_cancel₀ hz3 (by
      linear_combination r2' + m * z ^ 2 * haz - m * hv2 - 4 * m * h4)
    refine ⟨vz, az, ?_, ?_, T, ?_, ?_⟩
    · simp
      linear_combination hvz
    · simp
      linear_combination haz
    · ext i
      fin_cases i <;> simp [vecHead, vecTail]
      · linear_combination r0 - b0
      · linear_combination r1 - b1
      · linear_combination a2 + hT
    · ext i
      fin_cases i <;> simp
      · linear_combination b0
      · linear_combination b1
      · linear_combination -hT

/-- C87, partial: without the hypothesis on the product the claim is false (`C87_cross_term`). -/
theorem C87_newton_partial (P : PoleDyn) (hm : P.mSphere ≠ 0) (x : Fin 7 → ℝ) (u : Fin 3 → ℝ) (d : Fin 7 → ℝ)
    (hx : x 0 ^ 2 + x 1 ^ 2 < P.length ^ 2) (hd : P.dyn x u = some d) (h : x 0 * x 1 * x 5 * x 6 = 0) :
    d 0 = x 5 ∧ d 1 = x 6 ∧
      ∃ vz az, RodNewton P.mEe P.mSphere P.gravity ![x 0, x 1, √(P.length ^ 2 - x 0 ^ 2 - x 1 ^ 2)] ![x 5, x 6, vz]
        ![d 5, d 6, az] ![d 2, d 3, d 4] u :=
  have r := pole_rows P x u d hd
  ⟨r.1, r.2.1, (C87_newton_iff P hm x u d hx hd).2 h⟩

/-- The kinetic energy of the two masses is positive definite. -/
theorem pole_energy {m e a b v0 v1 v2 v3 v4 : ℝ} (hm : 0 < m) (he : 0 < e)
    (en : e * (v0 ^ 2 + v1 ^ 2 + v2 ^ 2) + m * ((v0 + v3) ^ 2 + (v1 + v4) ^ 2 + (v2 - a * v3 - b * v4) ^ 2) = 0) :
    v0 = 0 ∧ v1 = 0 ∧ v2 = 0 ∧ v3 = 0 ∧ v4 = 0 := by
  have h1 : 0 ≤ e * v0 ^ 2 := by positivity
  have h2 : 0 ≤ e * v1 ^ 2 := by positivity
  have h3 : 0 ≤ e * v2 ^ 2 := by positivity
  have h4 : 0 ≤ m * (v0 + v3) ^ 2 := by positivity
  have h5 : 0 ≤ m * (v1 + v4) ^ 2 := by positivity
  have h6 : 0 ≤ m * (v2 - a * v3 - b * v4) ^ 2 := by positivity
  have z {c w : ℝ} (hc : 0 < c) (h : c * w ^ 2 = 0) : w = 0 :=
    pow_eq_zero_iff two_ne_zero |>.1 ((mul_eq_zero.1 h).resolve_left hc.ne')
  have e0 := z he (w := v0) (by linarith)
  have e1 := z he (w := v1) (by linarith)
  have e3 := z hm (w := v0 + v3) (by linarith)
  have e4 := z hm (w := v1 + v4) (by linarith)
  exact ⟨e0, e1, z he (by linarith), by linarith, by linarith⟩

/-- C87. The dynamics are defined at every state with the sphere above the end effector. -/
theorem C87_accepts (P : PoleDyn) (hm : 0 < P.mSphere) (he : 0 < P.mEe) (x : Fin 7 → ℝ) (u : Fin 3 → ℝ)
    (_hx : x 0 ^ 2 + x 1 ^ 2 < P.length ^ 2) : (P.dyn x u).isSome := by
  have hdet : (P.M x).det ≠ 0 := by
    intro h0
    obtain ⟨v, hv, h⟩ := Matrix.exists_mulVec_eq_zero_iff.2 h0
    refine hv ?_
    have r0 := congrFun h 0
    have r1 := congrFun h 1
    have r2 := congrFun h 2
    have r3 := congrFun h 3
    have r4 := congrFun h 4
    simp [PoleDyn.M, Matrix.mulVec, dotProduct, Fin.sum_univ_succ] at r0 r1 r2 r3 r4
    obtain ⟨v0, v1, v2, v3, v4⟩ := pole_energy hm he
      (a := x 0 / P.z x) (b := x 1 / P.z x) (v0 := v 0) (v1 := v 1) (v2 := v 2) (v3 := v 3) (v4 := v 4) (by
        linear_combination v 0 * r0 + v 1 * r1 + v 2 * r2 + v 3 * r3 + v 4 * r4)
    ext i
    fin_cases i
    exacts [v0, v1, v2, v3, v4]
  simp [PoleDyn.dyn, hdet]

/-- C87 (the code disagrees). For every pole there are states, with the sphere above the end effector, at which the
accelerations violate Newton's laws for every input: the mixed term of the vertical acceleration of the sphere
(pole.py 63-65 and 98-101) has the wrong sign. -/
theorem C87_cross_term (P : PoleDyn) (hm : 0 < P.mSphere) (he : 0 < P.mEe) (hl : 0 < P.length) :
    ∃ x : Fin 7 → ℝ, x 0 ^ 2 + x 1 ^ 2 < P.length ^ 2 ∧ ∀ u : Fin 3 → ℝ, ∃ d, P.dyn x u = some d ∧
      ¬ ∃ vz az, RodNewton P.mEe P.mSphere P.gravity ![x 0, x 1, √(P.length ^ 2 - x 0 ^ 2 - x 1 ^ 2)] ![x 5, x 6, vz]
        ![d 5, d 6, az] ![d 2, d 3, d 4] u := by
  have hx : (![P.length / 2, P.length / 2, 0, 0, 0, 1, 1] : Fin 7 → ℝ) 0 ^ 2 +
      (![P.length / 2, P.length / 2, 0, 0, 0, 1, 1] : Fin 7 → ℝ) 1 ^ 2 < P.length ^ 2 := by
    simp
    nlinarith
  refine ⟨_, hx, fun u => ?_⟩
  obtain ⟨d, hd⟩ := Option.isSome_iff_exists.1 (C87_accepts P hm he _ u hx)
  refine ⟨d, hd, fun h => ?_⟩
  have := (C87_newton_iff P hm.ne' _ u d hx hd).1 h
  simp at this
  exact hl.ne' this

/-- The pole of `pole_relu_system.py` tilted along one axis and moving along the other: Newton's laws hold. -/
example (u : Fin 3 → ℝ) : ∃ d, (⟨1, 2, 3, 9.81⟩ : PoleDyn).dyn ![1, 0, 0, 0, 0, 2, 5] u = some d ∧ ∃ vz az,
    RodNewton 2 1 9.81 ![1, 0, √(3 ^ 2 - 1 ^ 2 - 0 ^ 2)] ![2, 5, vz] ![d 5, d 6, az] ![d 2, d 3, d 4] u := by
  have hx : (![1, 0, 0, 0, 0, 2, 5] : Fin 7 → ℝ) 0 ^ 2 + (![1, 0, 0, 0, 0, 2, 5] : Fin 7 → ℝ) 1 ^ 2 < (3 : ℝ) ^ 2 := by
    norm_num
  obtain ⟨d, hd⟩ := Option.isSome_iff_exists.1
    (C87_accepts ⟨1, 2, 3, 9.81⟩ (by norm_num) (by norm_num) ![1, 0, 0, 0, 0, 2, 5] u hx)
  exact ⟨d, hd, (C87_newton_partial ⟨1, 2, 3, 9.81⟩ (by norm_num) _ u d hx hd (by simp)).2.2⟩

/-- A pendulum turning at constant speed under the torque which balances gravity and damping. -/
example : HasDerivAt (fun s => Pendulum.init.potential ![s, 1] + Pendulum.init.kinetic ![s, 1]) (9.81 * sin 1) 1 := by
  have h := C86_pendulum_power Pendulum.init (by norm_num [Pendulum.init]) (by norm_num [Pendulum.init])
    (fun t => ![t, 1]) (fun t => ![9.81 * sin t + 0.1]) (fun t i => by
      fin_cases i
      · exact (hasDerivAt_id t).congr_deriv (by simp [Pendulum.dyn])
      · exact (hasDerivAt_const t (1 : ℝ)).congr_deriv (by simp [Pendulum.dyn, Pendulum.init])) 1
  exact h.congr_deriv (by simp [Pendulum.init])

/-- A pendulum without gravity and damping, at the desired energy. -/
example (gain : ℝ) : Trajectory (⟨1, 0, 1, 0⟩ : Pendulum).dyn (fun t => ![t, 1])
    fun t => (⟨1, 0, 1, 0⟩ : Pendulum).shaping ![t, 1] ![0, 1] gain := fun t i => by
  fin_cases i
  · exact (hasDerivAt_id t).congr_deriv (by simp [Pendulum.dyn])
  · exact (hasDerivAt_const t (1 : ℝ)).congr_deriv (by
      simp [Pendulum.dyn, Pendulum.shaping, Pendulum.potential, Pendulum.kinetic])

/-- A falling quadrotor which turns about its vertical axis. -/
example : Trajectory Quad3.init.dynNp
    (fun t => ![0, 0, -(9.81 / 2 * t ^ 2), 0, 0, t, 0, 0, -(9.81 * t), 0, 0, 1]) fun _ => 0 := fun t i => by
  rw [quad3_eq]
  fin_cases i
  all_goals simp [Quad3.init, hasDerivAt_const]
  · exact (((hasDerivAt_pow 2 t).const_mul (9.81 / 2)).neg).congr_deriv (by norm_num; ring)
  · exact hasDerivAt_id t
  · exact (((hasDerivAt_id t).const_mul 9.81).neg).congr_deriv (by norm_num)

/-- A rocket falling without thrust, and its bottom. -/
example : Trajectory Planar.rocket.rocket2Dyn
    (fun t => rodBottom Planar.rocket.length ![0, -(9.81 / 2 * t ^ 2), t, 0, -(9.81 * t), 1]) fun _ => 0 :=
  (C86_rocket_bottom Planar.rocket _ _).1 fun t i => by
    fin_cases i
    all_goals simp [Planar.rocketDyn, Planar.rocket, hasDerivAt_const]
    · exact (((hasDerivAt_pow 2 t).const_mul (9.81 / 2)).neg).congr_deriv (by norm_num; ring)
    · exact hasDerivAt_id t
    · exact (((hasDerivAt_id t).const_mul 9.81).neg).congr_deriv (by norm_num)

end NNL.Props
