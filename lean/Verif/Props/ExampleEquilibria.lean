import Verif.Props.ContSystems

/-!
# C79: the equilibria of the example systems

The networks are subtracted their value at the equilibrium, so that the equilibrium is a fixed point whatever the
weights are.
-/

set_option linter.unusedSectionVars false

namespace NNL.Props

open NNL NNL.Model NNL.Spec

variable {K : Type*} [Field K] [LinearOrder K] [IsStrictOrderedRing K]

/-- C79. Every position with heading zero is a fixed point of the unicycle model for the input zero, if the limits allow
it. -/
theorem C79_unicycle {S : ExSys K} {flag : Bool} (h : ExOk S 3 2 (uniSize flag) 2) (h0 : InBox S.uLo S.uUp [0, 0])
    (a b : K) : S.uniStep flag [a, b, 0] [0, 0] = some [a, b, 0] := by
  refine (C76_unicycle_step h rfl rfl _).2 ⟨h0, rfl, fun i hi => ?_, by simp⟩
  cases flag <;> interval_cases i <;> simp

/-- C79. With `UnicycleReLUZeroVelModel` every state is a fixed point for the input zero. -/
theorem C79_zero_velocity {S : ExSys K} {flag : Bool} (h : ExOk S 3 2 (uniSize flag) 2) (h0 : InBox S.uLo S.uUp [0, 0])
    (a b c : K) : S.zeroStep flag [a, b, c] [0, 0] = some [a, b, c] := by
  refine (C76_zero_velocity_step h rfl rfl _).2 ⟨h0, rfl, fun i hi => ?_, by simp⟩
  cases flag <;> interval_cases i <;> simp

/-- C79. Every position with heading and speed zero is a fixed point of the car for the input zero. -/
theorem C79_acceleration_car {S : ExSys K} (h : ExOk S 4 2 4 2) (a b : K) :
    S.carStep [a, b, 0, 0] [0, 0] = [a, b, 0, 0] := by
  refine (C76_acceleration_car_step h rfl rfl _).2 ⟨rfl, fun i hi => ?_, by simp, by simp⟩
  interval_cases i <;> simp

/-- C79. The upright pole whose end `B` does not move relative to `A` is a fixed point for the equilibrium input,
whatever the velocity of `A` is. -/
theorem C79_pole {S : ExSys K} (h : ExOk S 7 3 7 5) (a b c : K) :
    S.poleStep [0, 0, a, b, c, 0, 0] S.uEq = [0, 0, a, b, c, 0, 0] := by
  refine (C77_pole_step h rfl _).2 ⟨rfl, fun i hi => ?_, fun i hi => ?_⟩
  · interval_cases i <;> simp
  · interval_cases i <;> simp

/-- C79. Hovering: every position, without rotation and velocity, is a fixed point for the equilibrium input. -/
theorem C79_pixhawk {S : ExSys K} (h : ExOk S 9 4 7 6) (a b c : K) :
    S.pixStep [a, b, c, 0, 0, 0, 0, 0, 0] S.uEq = [a, b, c, 0, 0, 0, 0, 0, 0] := by
  refine (C77_pixhawk_step h rfl _).2 ⟨rfl, fun i hi => ?_⟩
  interval_cases i <;> simp

/-- C79. Hovering, for `QuadrotorReLUSystem`. -/
theorem C79_quadrotor {S : ExSys K} (h : ExOk S 12 4 10 9) (a b c : K) :
    S.quadStep [a, b, c, 0, 0, 0, 0, 0, 0, 0, 0, 0] S.uEq = [a, b, c, 0, 0, 0, 0, 0, 0, 0, 0, 0] := by
  refine (C77_quadrotor_step h rfl _).2 ⟨rfl, fun i hi => ?_⟩
  interval_cases i <;> simp

/-- C79. The derivative of the pendulum vanishes at the equilibrium `(θ*, 0)`. -/
theorem C79_pendulum {S : ExSys K} (h : ExOk S 2 1 3 1) (t : K) :
    S.pendStep [t, 0] [t, 0] S.uEq = [0, 0] :=
  (C78_pendulum_step h _ _ _ _).2 ⟨rfl, by simp, by simp⟩

/-- C79. The derivative of the planar quadrotor vanishes at every position without rotation and velocity, for the
equilibrium input. -/
theorem C79_quadrotor2d {S : ExSys K} (h : ExOk S 6 2 3 3) (a b : K) :
    S.quad2Step [a, b, 0, 0, 0, 0] S.uEq = [0, 0, 0, 0, 0, 0] := by
  refine (C78_quadrotor2d_step h rfl _).2 ⟨rfl, fun i hi => ?_⟩
  interval_cases i <;> simp

example : (exSysP 3 2 3 2).uniStep true [3, 4, 0] [0, 0] = some [3, 4, 0] ∧
    (exSysP 12 4 10 9).quadStep [1, 2, 3, 0, 0, 0, 0, 0, 0, 0, 0, 0] (exSysP 12 4 10 9).uEq =
      [1, 2, 3, 0, 0, 0, 0, 0, 0, 0, 0, 0] :=
  ⟨C79_unicycle (flag := true) (exSysP_ok 3 2 3 2) ⟨rfl, rfl, fun i hi => by
    have : i < 2 := hi
    interval_cases i <;> norm_num [exSysP]⟩ 3 4, C79_quadrotor (exSysP_ok 12 4 10 9) 1 2 3⟩

end NNL.Props
