import Verif.Model.Physics
import Mathlib.Analysis.Real.Sqrt

/-!
# The linear quadratic regulators of the examples

`scipy.linalg.solve_continuous_are` is a parameter `care`.  Real numbers stand for floats.
-/

namespace NNL.Model

open Real Matrix

/-- `scipy.linalg.solve_continuous_are(A, B, Q, R)`, a parameter: it returns a matrix or raises (`none`). -/
abbrev Care (n p : ℕ) := Matrix (Fin n) (Fin n) ℝ → Matrix (Fin n) (Fin p) ℝ → Matrix (Fin n) (Fin n) ℝ →
  Matrix (Fin p) (Fin p) ℝ → Option (Matrix (Fin n) (Fin n) ℝ)

/-- `np.linalg.solve(R, M)`: raises (`none`) on a singular `R`. -/
noncomputable def npSolve {n p : ℕ} (R : Matrix (Fin p) (Fin p) ℝ) (M : Matrix (Fin p) (Fin n) ℝ) :
    Option (Matrix (Fin p) (Fin n) ℝ) :=
  if R.det = 0 then none else some (R⁻¹ * M)

/-- quadrotor_2d.py 83-92 `Quadrotor2D.lqr_control`: the gain and the matrix `S`.  The branches on the type of `x`, `u` only
convert them. -/
noncomputable def Planar.lqrControl (P : Planar) (care : Care 6 2) (Q : Matrix (Fin 6) (Fin 6) ℝ)
    (R : Matrix (Fin 2) (Fin 2) ℝ) (x : Fin 6 → ℝ) (u : Fin 2 → ℝ) :
    Option (Matrix (Fin 2) (Fin 6) ℝ × Matrix (Fin 6) (Fin 6) ℝ) :=
  let AB := P.quadGrad x u
  (care AB.1 AB.2 Q R).bind fun S => (npSolve R (AB.2ᵀ * S)).map fun K => (-K, S)

/-- pendulum.py 78-92 `Pendulum.lqr_control`. -/
noncomputable def Pendulum.lqrControl (P : Pendulum) (care : Care 2 1) (Q : Matrix (Fin 2) (Fin 2) ℝ)
    (R : Matrix (Fin 1) (Fin 1) ℝ) : Option (Matrix (Fin 1) (Fin 2) ℝ) :=
  let AB := P.grad ![π, 0]
  (care AB.1 AB.2 Q R).bind fun S => (npSolve R (AB.2ᵀ * S)).map fun K => -K

/-- train_rocket_demo.py 167-170: `lqr_S`, `lqr_K` at `x_star`, `u_star` (163-164); the costs `lqr_Q`, `lqr_R` are
parameters. -/
noncomputable def Planar.rocketLqr (P : Planar) (care : Care 6 2) (Q : Matrix (Fin 6) (Fin 6) ℝ)
    (R : Matrix (Fin 2) (Fin 2) ℝ) : Option (Matrix (Fin 2) (Fin 6) ℝ × Matrix (Fin 6) (Fin 6) ℝ) :=
  let AB := P.rocketGrad 0 ![0, P.hoverThrust]
  (care AB.1 AB.2 Q R).bind fun S => (npSolve R (AB.2ᵀ * S)).map fun K => (-K, S)

/-- train_quadrotor_demo.py 259-264: `lqr_S`, `lqr_K` at the equilibrium (this gain has the opposite sign). -/
noncomputable def Quad3.lqr (P : Quad3) (care : Care 12 4) (Q : Matrix (Fin 12) (Fin 12) ℝ)
    (R : Matrix (Fin 4) (Fin 4) ℝ) : Option (Matrix (Fin 4) (Fin 12) ℝ × Matrix (Fin 12) (Fin 12) ℝ) :=
  let A := P.gradX 0 fun _ => P.hover
  let B := P.gradU 0
  (care A B Q R).bind fun S => (npSolve R (Bᵀ * S)).map fun K => (K, S)

/-- train_continuous_quadrotor_2d_demo.py 87-88, train_quadrotor_2d_demo.py 124-125, train_rocket_demo.py 104-105: one row of
`u_samples`. -/
def lqrU {n p : ℕ} (K : Matrix (Fin p) (Fin n) ℝ) (xe : Fin n → ℝ) (ue : Fin p → ℝ) (x : Fin n → ℝ) : Fin p → ℝ :=
  K *ᵥ (x - xe) + ue

/-- train_quadrotor_demo.py 120: one row of `u_samples`. -/
def lqrUNeg {n p : ℕ} (K : Matrix (Fin p) (Fin n) ℝ) (xe : Fin n → ℝ) (ue : Fin p → ℝ) (x : Fin n → ℝ) : Fin p → ℝ :=
  -(K *ᵥ (x - xe)) + ue

/-- train_continuous_quadrotor_2d_demo.py 62-64, train_quadrotor_2d_demo.py 99-101, train_rocket_demo.py 79-81,
train_quadrotor_demo.py 96-98: one row of `V_samples`. -/
def lqrV {n : ℕ} (S : Matrix (Fin n) (Fin n) ℝ) (xe : Fin n → ℝ) (x : Fin n → ℝ) : ℝ :=
  ∑ i, (x - xe) i * (S *ᵥ (x - xe)) i

/-- train_pendulum_demo.py 135-140 `controller` in `generate_controller_dataset`. -/
noncomputable def Pendulum.swingUp (P : Pendulum) (Q : Matrix (Fin 2) (Fin 2) ℝ) (K : Matrix (Fin 1) (Fin 2) ℝ)
    (x : Fin 2 → ℝ) : Fin 1 → ℝ :=
  if 0.1 < (x - ![π, 0]) ⬝ᵥ Q *ᵥ (x - ![π, 0]) then P.shaping x ![π, 0] 1 else K *ᵥ (x - ![π, 0])

/-- train_pendulum_demo.py 126-131 `state_cost_dot`: the derivative of the state and of the cost. -/
noncomputable def Pendulum.stateCostDot (P : Pendulum) (Q : Matrix (Fin 2) (Fin 2) ℝ) (R : Matrix (Fin 1) (Fin 1) ℝ)
    (y : Fin 3 → ℝ) (u : Fin 1 → ℝ) : Fin 3 → ℝ :=
  let x : Fin 2 → ℝ := ![y 0, y 1]
  ![P.dyn x u 0, P.dyn x u 1, (x - ![π, 0]) ⬝ᵥ Q *ᵥ (x - ![π, 0]) + u ⬝ᵥ R *ᵥ u]

/-- `np.cumsum`. -/
def cumsum : ℝ → List ℝ → List ℝ
  | _, [] => []
  | a, x :: l => (a + x) :: cumsum (a + x) l

/-- train_pendulum_demo.py 167-169: the costs of one simulated trajectory, from the third row `c` of the result. -/
def costsToGo (c : List ℝ) : List ℝ :=
  let interval := List.zipWith (· - ·) (c.drop 1) c.dropLast ++ [0]
  (cumsum 0 interval.reverse).reverse

/-- test/double_integrator.py 6-14 `double_integrator_dynamics`. -/
def doubleIntegrator : Matrix (Fin 2) (Fin 2) ℝ × Matrix (Fin 2) (Fin 1) ℝ := (!![0, 1; 0, 0], !![0; 1])

/-- test/double_integrator.py 17-50 `double_integrator_lqr`: `R` is a number; the assertions on types and shapes hold by
construction. -/
noncomputable def doubleIntegratorLqr (Q : Matrix (Fin 2) (Fin 2) ℝ) (R : ℝ) :
    Option (Matrix (Fin 1) (Fin 2) ℝ × Matrix (Fin 2) (Fin 2) ℝ) :=
  if 0 < R ∧ Q 0 1 = Q 1 0 then
    let fill := fun p01 : ℝ =>
      let p11 := sqrt (R * (2 * p01 + Q 1 1))
      ((p01 * p11 - R * Q 0 1) / R, p01, p11)
    let t := fill (sqrt (R * Q 0 0))
    let t := if t.1 < 0 ∨ t.1 * t.2.2 < t.2.1 * t.2.1 then fill (-t.2.1) else t
    let P : Matrix (Fin 2) (Fin 2) ℝ := !![t.1, t.2.1; t.2.1, t.2.2]
    some ((1 / R) • ((!![0, 1] : Matrix (Fin 1) (Fin 2) ℝ) * P), P)
  else none

end NNL.Model
