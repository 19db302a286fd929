import Verif.Model.Physics
import Verif.Lemmas.Jacobian
import Verif.Props.Geometry
import Mathlib.Analysis.SpecialFunctions.Trigonometric.ArctanDeriv

/-!
# C85: the gradients of the physical models are their derivatives
-/

namespace NNL.Props

open Real Matrix NNL.Model NNL.Spec

/-- C85. `Unicycle.dynamics_gradient` returns `∂f/∂x` and `∂f/∂u`, for arrays and tensors. -/
theorem C85_unicycle (x : Fin 3 → ℝ) (u : Fin 2 → ℝ) :
    IsJacobian (fun x => unicycleDyn x u) (unicycleGradNp x u).1 x ∧
      IsJacobian (fun u => unicycleDyn x u) (unicycleGradNp x u).2 u ∧
      unicycleGradTorch x u = unicycleGradNp x u := by
  refine ⟨jac_of fun i => ?_, jac_of fun i => ?_, ?_⟩
  · fin_cases i
    · exact ⟨_, (jc 2 x).cos.const_mul (u 0), fun v => by simp [unicycleGradNp, Fin.sum_univ_succ]; ring⟩
    · exact ⟨_, (jc 2 x).sin.const_mul (u 0), fun v => by simp [unicycleGradNp, Fin.sum_univ_succ]; ring⟩
    · exact ⟨_, jconst (u 1) x, fun v => by simp [unicycleGradNp, Fin.sum_univ_succ]⟩
  · fin_cases i
    · exact ⟨_, (jc 0 u).mul_const (cos (x 2)), fun v => by simp [unicycleGradNp, Fin.sum_univ_succ]⟩
    · exact ⟨_, (jc 0 u).mul_const (sin (x 2)), fun v => by simp [unicycleGradNp, Fin.sum_univ_succ]⟩
    · exact ⟨_, jc 1 u, fun v => by simp [unicycleGradNp, Fin.sum_univ_succ]⟩
  · refine Prod.ext ?_ ?_ <;> ext i j <;> fin_cases i <;> fin_cases j <;>
      simp [unicycleGradTorch, unicycleGradNp, setAt]

/-- C85. `Pendulum.dynamics_gradient`, for a pendulum with mass and length. -/
theorem C85_pendulum (P : Pendulum) (hm : P.mass ≠ 0) (hl : P.length ≠ 0) (x : Fin 2 → ℝ) (u : Fin 1 → ℝ) :
    IsJacobian (fun x => P.dyn x u) (P.grad x).1 x ∧ IsJacobian (fun u => P.dyn x u) (P.grad x).2 u := by
  refine ⟨jac_of fun i => ?_, jac_of fun i => ?_⟩
  · fin_cases i
    · exact ⟨_, jc 1 x, fun v => by simp [Pendulum.grad, Fin.sum_univ_succ]⟩
    · refine ⟨_, jdiv ((((jc 0 x).sin.const_mul (P.mass * P.gravity * P.length)).const_sub (u 0)).sub
        ((jc 1 x).const_mul P.damping)) (P.mass * P.length * P.length), fun v => ?_⟩
      simp [Pendulum.grad, Fin.sum_univ_succ]
      field_simp
      ring
  · fin_cases i
    · exact ⟨_, jconst (x 1) u, fun v => by simp [Pendulum.grad]⟩
    · refine ⟨_, jdiv (((jc 0 u).sub_const (P.mass * P.gravity * P.length * sin (x 0))).sub_const (P.damping * x 1))
        (P.mass * P.length * P.length), fun v => ?_⟩
      simp [Pendulum.grad]

/-- C85. `Quadrotor2D.linearized_dynamics`. -/
theorem C85_quadrotor2d (P : Planar) (x : Fin 6 → ℝ) (u : Fin 2 → ℝ) :
    IsJacobian (fun x => P.quadDyn x u) (P.quadGrad x u).1 x ∧
      IsJacobian (fun u => P.quadDyn x u) (P.quadGrad x u).2 u := by
  refine ⟨jac_of fun i => ?_, jac_of fun i => ?_⟩
  · fin_cases i
    · exact ⟨_, jc 3 x, fun v => by simp [Planar.quadGrad, Fin.sum_univ_succ]⟩
    · exact ⟨_, jc 4 x, fun v => by simp [Planar.quadGrad, Fin.sum_univ_succ]⟩
    · exact ⟨_, jc 5 x, fun v => by simp [Planar.quadGrad, Fin.sum_univ_succ]⟩
    · exact ⟨_, (jdiv (jc 2 x).sin.neg P.mass).mul_const (u 0 + u 1), fun v => by
        simp [Planar.quadGrad, Fin.sum_univ_succ]; ring⟩
    · exact ⟨_, ((jdiv (jc 2 x).cos P.mass).mul_const (u 0 + u 1)).sub_const P.gravity, fun v => by
        simp [Planar.quadGrad, Fin.sum_univ_succ]; ring⟩
    · exact ⟨_, jconst _ x, fun v => by simp [Planar.quadGrad, Fin.sum_univ_succ]⟩
  · fin_cases i
    · exact ⟨_, jconst _ u, fun v => by simp [Planar.quadGrad, Fin.sum_univ_succ]⟩
    · exact ⟨_, jconst _ u, fun v => by simp [Planar.quadGrad, Fin.sum_univ_succ]⟩
    · exact ⟨_, jconst _ u, fun v => by simp [Planar.quadGrad, Fin.sum_univ_succ]⟩
    · exact ⟨_, ((jc 0 u).add (jc 1 u)).const_mul (-sin (x 2) / P.mass), fun v => by
        simp [Planar.quadGrad, Fin.sum_univ_succ]⟩
    · exact ⟨_, (((jc 0 u).add (jc 1 u)).const_mul (cos (x 2) / P.mass)).sub_const P.gravity, fun v => by
        simp [Planar.quadGrad, Fin.sum_univ_succ]⟩
    · exact ⟨_, ((jc 0 u).sub (jc 1 u)).const_mul (P.length / P.inertia), fun v => by
        simp [Planar.quadGrad, Fin.sum_univ_succ]; ring⟩

/-- C85. `Rocket.linearized_dynamics`. -/
theorem C85_rocket (P : Planar) (x : Fin 6 → ℝ) (u : Fin 2 → ℝ) :
    IsJacobian (fun x => P.rocketDyn x u) (P.rocketGrad x u).1 x ∧
      IsJacobian (fun u => P.rocketDyn x u) (P.rocketGrad x u).2 u := by
  refine ⟨jac_of fun i => ?_, jac_of fun i => ?_⟩
  · fin_cases i
    · exact ⟨_, jc 3 x, fun v => by simp [Planar.rocketGrad, Fin.sum_univ_succ]⟩
    · exact ⟨_, jc 4 x, fun v => by simp [Planar.rocketGrad, Fin.sum_univ_succ]⟩
    · exact ⟨_, jc 5 x, fun v => by simp [Planar.rocketGrad, Fin.sum_univ_succ]⟩
    · exact ⟨_, jdiv (((jc 2 x).cos.mul_const (u 0)).sub ((jc 2 x).sin.mul_const (u 1))) P.mass, fun v => by
        simp [Planar.rocketGrad, Fin.sum_univ_succ]; ring⟩
    · exact ⟨_, (jdiv (((jc 2 x).sin.mul_const (u 0)).add ((jc 2 x).cos.mul_const (u 1))) P.mass).sub_const P.gravity,
        fun v => by simp [Planar.rocketGrad, Fin.sum_univ_succ]; ring⟩
    · exact ⟨_, jconst _ x, fun v => by simp [Planar.rocketGrad, Fin.sum_univ_succ]⟩
  · fin_cases i
    · exact ⟨_, jconst _ u, fun v => by simp [Planar.rocketGrad, Fin.sum_univ_succ]⟩
    · exact ⟨_, jconst _ u, fun v => by simp [Planar.rocketGrad, Fin.sum_univ_succ]⟩
    · exact ⟨_, jconst _ u, fun v => by simp [Planar.rocketGrad, Fin.sum_univ_succ]⟩
    · exact ⟨_, jdiv (((jc 0 u).const_mul (cos (x 2))).sub ((jc 1 u).const_mul (sin (x 2)))) P.mass, fun v => by
        simp [Planar.rocketGrad, Fin.sum_univ_succ]; ring⟩
    · exact ⟨_, (jdiv (((jc 0 u).const_mul (sin (x 2))).add ((jc 1 u).const_mul (cos (x 2)))) P.mass).sub_const P.gravity,
        fun v => by simp [Planar.rocketGrad, Fin.sum_univ_succ]; ring⟩
    · exact ⟨_, jdiv ((jc 0 u).const_mul (P.length / 2)) P.inertia, fun v => by
        simp [Planar.rocketGrad, Fin.sum_univ_succ]; ring⟩

/-- C85. `Rocket2.linearized_dynamics`. -/
theorem C85_rocket2 (P : Planar) (x : Fin 6 → ℝ) (u : Fin 2 → ℝ) :
    IsJacobian (fun x => P.rocket2Dyn x u) (P.rocket2Grad x u).1 x ∧
      IsJacobian (fun u => P.rocket2Dyn x u) (P.rocket2Grad x u).2 u := by
  refine ⟨jac_of fun i => ?_, jac_of fun i => ?_⟩
  · have hc := (jc 2 x).cos
    have hs := (jc 2 x).sin
    have hw := (jc 5 x).pow 2
    fin_cases i
    · exact ⟨_, jc 3 x, fun v => by simp [Planar.rocket2Grad, Fin.sum_univ_succ]⟩
    · exact ⟨_, jc 4 x, fun v => by simp [Planar.rocket2Grad, Fin.sum_univ_succ]⟩
    · exact ⟨_, jc 5 x, fun v => by simp [Planar.rocket2Grad, Fin.sum_univ_succ]⟩
    · refine ⟨_, (jdiv ((hc.mul_const (u 0)).sub (hs.mul_const (u 1))) P.mass).add
        (((hc.mul_const (P.length * u 0 / (2 * P.inertia))).sub (hs.mul hw)).const_mul (P.length / 2)), fun v => ?_⟩
      simp [Planar.rocket2Grad, Fin.sum_univ_succ]
      ring
    · refine ⟨_, ((jdiv ((hs.mul_const (u 0)).add (hc.mul_const (u 1))) P.mass).sub_const P.gravity).sub
        (((hs.neg.mul_const (P.length * u 0 / (2 * P.inertia))).sub (hc.mul hw)).const_mul (P.length / 2)), fun v => ?_⟩
      simp [Planar.rocket2Grad, Fin.sum_univ_succ]
      ring
    · exact ⟨_, jconst _ x, fun v => by simp [Planar.rocket2Grad, Fin.sum_univ_succ]⟩
  · have h0 := jc 0 u
    have h1 := jc 1 u
    have hwd := jdiv (h0.const_mul P.length) (2 * P.inertia)
    fin_cases i
    · exact ⟨_, jconst _ u, fun v => by simp [Planar.rocket2Grad, Fin.sum_univ_succ]⟩
    · exact ⟨_, jconst _ u, fun v => by simp [Planar.rocket2Grad, Fin.sum_univ_succ]⟩
    · exact ⟨_, jconst _ u, fun v => by simp [Planar.rocket2Grad, Fin.sum_univ_succ]⟩
    · refine ⟨_, (jdiv ((h0.const_mul (cos (x 2))).sub (h1.const_mul (sin (x 2)))) P.mass).add
        (((hwd.const_mul (cos (x 2))).sub_const (sin (x 2) * x 5 ^ 2)).const_mul (P.length / 2)), fun v => ?_⟩
      simp [Planar.rocket2Grad, Fin.sum_univ_succ]
      ring
    · refine ⟨_, ((jdiv ((h0.const_mul (sin (x 2))).add (h1.const_mul (cos (x 2)))) P.mass).sub_const P.gravity).sub
        (((hwd.const_mul (-sin (x 2))).sub_const (cos (x 2) * x 5 ^ 2)).const_mul (P.length / 2)), fun v => ?_⟩
      simp [Planar.rocket2Grad, Fin.sum_univ_succ]
      ring
    · refine ⟨_, hwd, fun v => ?_⟩
      simp [Planar.rocket2Grad, Fin.sum_univ_succ]
      ring

/-- The third column of the rotation matrix. -/
theorem rot_e3 (r p y a : ℝ) : rpy2rotmatNp r p y *ᵥ ![0, 0, a] =
    ![(cos y * sin p * cos r + sin y * sin r) * a, (sin y * sin p * cos r - cos y * sin r) * a, cos p * cos r * a] := by
  ext i
  fin_cases i <;> simp [rpy2rotmatNp, Matrix.mulVec, dotProduct, Fin.sum_univ_succ] <;> (left; ring)

theorem rotgrad_e3 (r p y a : ℝ) :
    (rpyGradNp r p y).1 *ᵥ ![0, 0, a] =
      ![(-(cos y * sin p * sin r) + sin y * cos r) * a, (-(sin y * sin p * sin r) - cos y * cos r) * a,
        -(cos p * sin r) * a] ∧
    (rpyGradNp r p y).2.1 *ᵥ ![0, 0, a] =
      ![cos y * cos p * cos r * a, sin y * cos p * cos r * a, -(sin p * cos r) * a] ∧
    (rpyGradNp r p y).2.2 *ᵥ ![0, 0, a] =
      ![(-(sin y * sin p * cos r) + cos y * sin r) * a, (cos y * sin p * cos r + sin y * sin r) * a, 0] := by
  refine ⟨?_, ?_, ?_⟩ <;> ext i <;>
    fin_cases i <;> simp [rpyGradNp, Matrix.mulVec, dotProduct, Fin.sum_univ_succ] <;> (left; ring)

theorem quad3_eq (P : Quad3) (x : Fin 12 → ℝ) (u : Fin 4 → ℝ) : P.dynNp x u =
    ![x 6, x 7, x 8,
      x 9 + sin (x 3) * tan (x 4) * x 10 + cos (x 3) * tan (x 4) * x 11,
      cos (x 3) * x 10 + -sin (x 3) * x 11,
      sin (x 3) / cos (x 4) * x 10 + cos (x 3) / cos (x 4) * x 11,
      (cos (x 5) * sin (x 4) * cos (x 3) + sin (x 5) * sin (x 3)) * (u 0 + u 1 + u 2 + u 3) / P.mass,
      (sin (x 5) * sin (x 4) * cos (x 3) - cos (x 5) * sin (x 3)) * (u 0 + u 1 + u 2 + u 3) / P.mass,
      cos (x 4) * cos (x 3) * (u 0 + u 1 + u 2 + u 3) / P.mass - P.gravity,
      ((P.inertia 1 - P.inertia 2) * (x 10 * x 11) + P.arm * (u 1 - u 3)) / P.inertia 0,
      ((P.inertia 2 - P.inertia 0) * (x 9 * x 11) + P.arm * (u 2 - u 0)) / P.inertia 1,
      ((P.inertia 0 - P.inertia 1) * (x 9 * x 10) + P.zFactor * (u 0 - u 1 + u 2 - u 3)) / P.inertia 2] := by
  have hp : P.plant u 0 = u 0 + u 1 + u 2 + u 3 := by simp [Quad3.plant, Matrix.mulVec, dotProduct, Fin.sum_univ_succ]; ring
  have hp1 : P.plant u 1 = P.arm * (u 1 - u 3) := by simp [Quad3.plant, Matrix.mulVec, dotProduct, Fin.sum_univ_succ]; ring
  have hp2 : P.plant u 2 = P.arm * (u 2 - u 0) := by simp [Quad3.plant, Matrix.mulVec, dotProduct, Fin.sum_univ_succ]; ring
  have hp3 : P.plant u 3 = P.zFactor * (u 0 - u 1 + u 2 - u 3) := by
    simp [Quad3.plant, Matrix.mulVec, dotProduct, Fin.sum_univ_succ]; ring
  ext i
  simp only [Quad3.dynNp, rot_e3, hp, hp1, hp2, hp3]
  fin_cases i <;> simp [rpyRate, Matrix.mulVec, dotProduct, Fin.sum_univ_succ, crossProduct]
  all_goals ring

/-- C85. `Quadrotor.dynamics_gradient`, away from the singularity of the roll, pitch, yaw coordinates. -/
theorem C85_quadrotor3d (P : Quad3) (x : Fin 12 → ℝ) (u : Fin 4 → ℝ) (hc : cos (x 4) ≠ 0) :
    IsJacobian (fun x => P.dynNp x u) (P.gradX x u) x ∧ IsJacobian (fun u => P.dynNp x u) (P.gradU x) u := by
  simp only [quad3_eq]
  obtain ⟨g1, g2, g3⟩ := rotgrad_e3 (x 3) (x 4) (x 5) (u 0 + u 1 + u 2 + u 3)
  refine ⟨jac_of fun i => ?_, jac_of fun i => ?_⟩
  · have s3 := (jc 3 x).sin
    have c3 := (jc 3 x).cos
    have s4 := (jc 4 x).sin
    have c4 := (jc 4 x).cos
    have s5 := (jc 5 x).sin
    have c5 := (jc 5 x).cos
    have ht : HasFDerivAt (fun y : Fin 12 → ℝ => tan (y 4)) 
        ((1 / cos (x 4) ^ 2) • ContinuousLinearMap.proj (R := ℝ) (4 : Fin 12)) x :=
      HasDerivAt.comp_hasFDerivAt (h₂ := tan) x (hasDerivAt_tan hc) (jc 4 x)
    have hi : HasFDerivAt (fun y : Fin 12 → ℝ => (cos (y 4))⁻¹)
        ((-((cos (x 4)) ^ 2)⁻¹) • ((-sin (x 4)) • ContinuousLinearMap.proj (R := ℝ) (4 : Fin 12))) x :=
      (hasDerivAt_inv hc).comp_hasFDerivAt x c4
    simp only [div_eq_mul_inv (sin _) (cos _), div_eq_mul_inv (cos _) (cos _)]
    fin_cases i
    · exact ⟨_, jc 6 x, fun v => by simp [Quad3.gradX, Fin.sum_univ_succ]⟩
    · exact ⟨_, jc 7 x, fun v => by simp [Quad3.gradX, Fin.sum_univ_succ]⟩
    · exact ⟨_, jc 8 x, fun v => by simp [Quad3.gradX, Fin.sum_univ_succ]⟩
    · refine ⟨_, ((jc 9 x).add ((s3.mul ht).mul (jc 10 x))).add ((c3.mul ht).mul (jc 11 x)), fun v => ?_⟩
      simp [Quad3.gradX, Fin.sum_univ_succ, Matrix.mulVec, dotProduct]
      ring
    · refine ⟨_, (c3.mul (jc 10 x)).add (s3.neg.mul (jc 11 x)), fun v => ?_⟩
      simp [Quad3.gradX, Fin.sum_univ_succ, Matrix.mulVec, dotProduct]
      ring
    · refine ⟨_, ((s3.mul hi).mul (jc 10 x)).add ((c3.mul hi).mul (jc 11 x)), fun v => ?_⟩
      simp [Quad3.gradX, Fin.sum_univ_succ, Matrix.mulVec, dotProduct, tan_eq_sin_div_cos]
      field_simp
      ring
    · refine ⟨_, jdiv ((((c5.mul s4).mul c3).add (s5.mul s3)).mul_const (u 0 + u 1 + u 2 + u 3)) P.mass, fun v => ?_⟩
      simp [Quad3.gradX, Fin.sum_univ_succ, g1, g2, g3]
      ring
    · refine ⟨_, jdiv ((((s5.mul s4).mul c3).sub (c5.mul s3)).mul_const (u 0 + u 1 + u 2 + u 3)) P.mass, fun v => ?_⟩
      simp [Quad3.gradX, Fin.sum_univ_succ, g1, g2, g3]
      ring
    · refine ⟨_, (jdiv ((c4.mul c3).mul_const (u 0 + u 1 + u 2 + u 3)) P.mass).sub_const P.gravity, fun v => ?_⟩
      simp [Quad3.gradX, Fin.sum_univ_succ, g1, g2, g3]
      ring
    · refine ⟨_, jdiv ((((jc 10 x).mul (jc 11 x)).const_mul (P.inertia 1 - P.inertia 2)).add_const
        (P.arm * (u 1 - u 3))) (P.inertia 0), fun v => ?_⟩
      simp [Quad3.gradX, Fin.sum_univ_succ]
      ring
    · refine ⟨_, jdiv ((((jc 9 x).mul (jc 11 x)).const_mul (P.inertia 2 - P.inertia 0)).add_const
        (P.arm * (u 2 - u 0))) (P.inertia 1), fun v => ?_⟩
      simp [Quad3.gradX, Fin.sum_univ_succ]
      ring
    · refine ⟨_, jdiv ((((jc 9 x).mul (jc 10 x)).const_mul (P.inertia 0 - P.inertia 1)).add_const
        (P.zFactor * (u 0 - u 1 + u 2 - u 3))) (P.inertia 2), fun v => ?_⟩
      simp [Quad3.gradX, Fin.sum_univ_succ]
      ring
  · have hs := (((jc 0 u).add (jc 1 u)).add (jc 2 u)).add (jc 3 u)
    fin_cases i
    · exact ⟨_, jconst _ u, fun v => by simp [Quad3.gradU, Fin.sum_univ_succ]⟩
    · exact ⟨_, jconst _ u, fun v => by simp [Quad3.gradU, Fin.sum_univ_succ]⟩
    · exact ⟨_, jconst _ u, fun v => by simp [Quad3.gradU, Fin.sum_univ_succ]⟩
    · exact ⟨_, jconst _ u, fun v => by simp [Quad3.gradU, Fin.sum_univ_succ]⟩
    · exact ⟨_, jconst _ u, fun v => by simp [Quad3.gradU, Fin.sum_univ_succ]⟩
    · exact ⟨_, jconst _ u, fun v => by simp [Quad3.gradU, Fin.sum_univ_succ]⟩
    · refine ⟨_, jdiv (hs.const_mul (cos (x 5) * sin (x 4) * cos (x 3) + sin (x 5) * sin (x 3))) P.mass, fun v => ?_⟩
      simp [Quad3.gradU, Fin.sum_univ_succ, rot_e3]
      ring
    · refine ⟨_, jdiv (hs.const_mul (sin (x 5) * sin (x 4) * cos (x 3) - cos (x 5) * sin (x 3))) P.mass, fun v => ?_⟩
      simp [Quad3.gradU, Fin.sum_univ_succ, rot_e3]
      ring
    · refine ⟨_, (jdiv (hs.const_mul (cos (x 4) * cos (x 3))) P.mass).sub_const P.gravity, fun v => ?_⟩
      simp [Quad3.gradU, Fin.sum_univ_succ, rot_e3]
      ring
    · refine ⟨_, jdiv ((((jc 1 u).sub (jc 3 u)).const_mul P.arm).const_add
        ((P.inertia 1 - P.inertia 2) * (x 10 * x 11))) (P.inertia 0), fun v => ?_⟩
      simp [Quad3.gradU, Fin.sum_univ_succ]
      ring
    · refine ⟨_, jdiv ((((jc 2 u).sub (jc 0 u)).const_mul P.arm).const_add
        ((P.inertia 2 - P.inertia 0) * (x 9 * x 11))) (P.inertia 1), fun v => ?_⟩
      simp [Quad3.gradU, Fin.sum_univ_succ]
      ring
    · refine ⟨_, jdiv (((((jc 0 u).sub (jc 1 u)).add (jc 2 u)).sub (jc 3 u)).const_mul P.zFactor |>.const_add
        ((P.inertia 0 - P.inertia 1) * (x 9 * x 10))) (P.inertia 2), fun v => ?_⟩
      simp [Quad3.gradU, Fin.sum_univ_succ]
      ring

/-- C85. The two branches of `Quadrotor.dynamics` agree. -/
theorem C85_quadrotor3d_branches (P : Quad3) (x : Fin 12 → ℝ) (u : Fin 4 → ℝ) : P.dynTorch x u = P.dynNp x u := by
  have hT : setEntry (setEntry (setEntry (setEntry (setEntry (setEntry (setEntry 0 0 0 1) 0 1 (sin (x 3) * tan (x 4)))
      0 2 (cos (x 3) * tan (x 4))) 1 1 (cos (x 3))) 1 2 (-sin (x 3))) 2 1 (sin (x 3) / cos (x 4))) 2 2
      (cos (x 3) / cos (x 4)) = rpyRate x := by
    ext i j; fin_cases i <;> fin_cases j <;> simp [rpyRate, setEntry]
  have hR : ∀ i, (rpy2rotmatNp (x 3) (x 4) (x 5) *ᵥ ![0, 0, P.plant u 0]) i =
      rpy2rotmatNp (x 3) (x 4) (x 5) i 2 * P.plant u 0 := by
    intro i
    simp [Matrix.mulVec, dotProduct, Fin.sum_univ_succ]
  simp only [Quad3.dynTorch, Quad3.dynNp, hT, hR, C53_branches]

/-- The pendulum and the quadrotor of the code, away from an equilibrium. -/
example : IsJacobian (fun x => Pendulum.init.dyn x ![2]) (Pendulum.init.grad ![1, 3]).1 ![1, 3] :=
  (C85_pendulum Pendulum.init (by norm_num [Pendulum.init]) (by norm_num [Pendulum.init]) ![1, 3] ![2]).1

example : IsJacobian (fun x => Quad3.init.dynNp x ![1, 2, 3, 4])
    (Quad3.init.gradX ![1, 2, 3, 0.1, 0.2, 0.3, 4, 5, 6, 7, 8, 9] ![1, 2, 3, 4])
    ![1, 2, 3, 0.1, 0.2, 0.3, 4, 5, 6, 7, 8, 9] :=
  (C85_quadrotor3d Quad3.init _ ![1, 2, 3, 4] (by
    simp
    exact (cos_pos_of_mem_Ioo ⟨by linarith [one_le_pi_div_two], by linarith [one_le_pi_div_two]⟩).ne')).1

end NNL.Props
