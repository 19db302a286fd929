import Mathlib.LinearAlgebra.CrossProduct
import Mathlib.Analysis.SpecialFunctions.Trigonometric.Basic

/-!
# Mechanics
-/

namespace NNL.Spec

open Real Matrix

/-- The state of the bottom of a rod of length `l`, from the state `(x, z, θ, xdot, zdot, θdot)` of its centre; `θ` is the angle
to the vertical, counterclockwise: the bottom is at `centre + l/2 (sin θ, -cos θ)`. -/
noncomputable def rodBottom (l : ℝ) (x : Fin 6 → ℝ) : Fin 6 → ℝ :=
  ![x 0 + l / 2 * sin (x 2), x 1 - l / 2 * cos (x 2), x 2,
    x 3 + l / 2 * (cos (x 2) * x 5), x 4 + l / 2 * (sin (x 2) * x 5), x 5]

/-- Positions of the four propellers at distance `L` from the centre, on the axes of the body. -/
def propeller (L : ℝ) : Fin 4 → Fin 3 → ℝ := ![![L, 0, 0], ![0, L, 0], ![-L, 0, 0], ![0, -L, 0]]

/-- Torque of forces `u i` along the body axis `z` at the propellers, and of the drag of propellers which turn in
alternating directions, `k` times the force. -/
def rotorTorque (L k : ℝ) (u : Fin 4 → ℝ) : Fin 3 → ℝ :=
  (∑ i, crossProduct (propeller L i) ![0, 0, u i]) + ![0, 0, k * u 0 - k * u 1 + k * u 2 - k * u 3]

/-- Newton's laws for two point masses on a massless rigid rod: `p` is the vector from the lower mass `mA` to the upper mass
`mB`, `v` and `a` its first and second time derivatives, `aA` the acceleration of the lower mass, on which the force `f` acts.
The rod keeps its length (`p·p` is constant, so its first two derivatives vanish) and pulls with a force along itself. -/
def RodNewton (mA mB g : ℝ) (p v a aA f : Fin 3 → ℝ) : Prop :=
  p ⬝ᵥ v = 0 ∧ v ⬝ᵥ v + p ⬝ᵥ a = 0 ∧
    ∃ T : ℝ, mA • aA = f - T • p - (mA * g) • ![0, 0, 1] ∧ mB • (aA + a) = T • p - (mB * g) • ![0, 0, 1]

end NNL.Spec
