import Mathlib.Algebra.Module.Basic
import Mathlib.Algebra.Field.Defs

/-!
# `integrator.py`
-/

namespace NNL.Model

variable {K E U : Type} [Field K] [AddCommGroup E] [Module K E]

/-- integrator.py 19-23: one round of the loop of `rk4_constant_control`. -/
def rk4Step (dynamics : E → U → E) (dt : K) (u : U) (x : E) : E :=
  let k1 := dynamics x u
  let k2 := dynamics (x + (dt / 2) • k1) u
  let k3 := dynamics (x + (dt / 2) • k2) u
  let k4 := dynamics (x + dt • k3) u
  x + (1 / 6 * dt) • (k1 + (2 : K) • k2 + (2 : K) • k3 + k4)

/-- integrator.py 16-23: the loop. -/
def rk4Loop (dynamics : E → U → E) (dt : K) (u : U) : ℕ → E → E
  | 0, x => x
  | n + 1, x => rk4Loop dynamics dt u n (rk4Step dynamics dt u x)

/-- integrator.py 7-24 `rk4_constant_control`. -/
def rk4ConstantControl (dynamics : E → U → E) (controller : E → U) (x0 : E) (dt : K) (steps : ℕ) : E × U :=
  let u := controller x0
  (rk4Loop dynamics dt u steps x0, u)

end NNL.Model
