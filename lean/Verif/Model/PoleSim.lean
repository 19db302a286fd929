import Verif.Model.Physics
import Mathlib.Analysis.Calculus.Deriv.Basic

/-!
# The regulator of `examples/pole/simulation/pole_balancing_sim.py`

The simulator (drake) and its `LinearQuadraticRegulator` are parameters.  Real numbers stand for floats.
-/

namespace NNL.Model

open Matrix

/-- pole.py 115-128 `Pole.gradient`: `torch.autograd.functional.jacobian` of `dynamics`.  Automatic differentiation is
modelled by the partial derivatives; where `dynamics` raises, so does this (`none`). -/
noncomputable def PoleDyn.gradient (P : PoleDyn) (x : Fin 7 → ℝ) (u : Fin 3 → ℝ) :
    Option (Matrix (Fin 7) (Fin 7) ℝ × Matrix (Fin 7) (Fin 3) ℝ) :=
  if (P.dyn x u).isSome then
    some (Matrix.of fun i j => deriv (fun t => (P.dyn (Function.update x j t) u).getD 0 i) (x j),
      Matrix.of fun i j => deriv (fun t => (P.dyn x (Function.update u j t)).getD 0 i) (u j))
  else none

/-- drake's `LinearQuadraticRegulator(A, B, Q, R)`, a parameter: it returns the gain and the cost, or raises (`none`). -/
abbrev DrakeLqr (n p : ℕ) := Matrix (Fin n) (Fin n) ℝ → Matrix (Fin n) (Fin p) ℝ → Matrix (Fin n) (Fin n) ℝ →
  Matrix (Fin p) (Fin p) ℝ → Option (Matrix (Fin p) (Fin n) ℝ × Matrix (Fin n) (Fin n) ℝ)

/-- pole_balancing_sim.py 75: `u_eq`. -/
def PoleDyn.uEq (P : PoleDyn) : Fin 3 → ℝ := ![0, 0, (P.mSphere + P.mEe) * P.gravity]

/-- pole_balancing_sim.py 71-74, 78 and pole.py 32: the pole of the simulation. -/
noncomputable def simPole : PoleDyn := ⟨0.1649, 0.2, 0.82, 9.81⟩

/-- pole_balancing_sim.py 84: `Q`. -/
def simPoleQ : Matrix (Fin 7) (Fin 7) ℝ := diagonal ![10, 10, 1, 1, 1, 10, 10]

/-- pole_balancing_sim.py 85: `R`. -/
def simPoleR : Matrix (Fin 3) (Fin 3) ℝ := 1

/-- pole_balancing_sim.py 77-87 `LQRController.__init__`: the gain `K`; the pole and the costs are parameters. -/
noncomputable def PoleDyn.lqrGain (P : PoleDyn) (lqr : DrakeLqr 7 3) (Q : Matrix (Fin 7) (Fin 7) ℝ)
    (R : Matrix (Fin 3) (Fin 3) ℝ) : Option (Matrix (Fin 3) (Fin 7) ℝ) :=
  (P.gradient 0 P.uEq).bind fun AB => (lqr AB.1 AB.2 Q R).map fun KS => KS.1

/-- pole_balancing_sim.py 97-112 `LQRController.CalculateController`: the force, from the positions and velocities of the two
bodies. -/
def PoleDyn.lqrForce (P : PoleDyn) (K : Matrix (Fin 3) (Fin 7) ℝ) (ballPose ballVel platePose plateVel : Fin 3 → ℝ) :
    Fin 3 → ℝ :=
  let x : Fin 7 → ℝ := ![ballPose 0 - platePose 0, ballPose 1 - platePose 1, plateVel 0, plateVel 1, plateVel 2,
    ballVel 0 - plateVel 0, ballVel 1 - plateVel 1]
  (-K) *ᵥ x + P.uEq

end NNL.Model
