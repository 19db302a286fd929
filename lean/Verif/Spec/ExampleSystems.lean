import Verif.Basic.Vec

/-!
# The documented next states of the example systems

`φ` is the network of the system.
-/

namespace NNL.Spec

open NNL

variable {K : Type*} [Field K] [LinearOrder K]

/-- Entry `i` of the input respects the limits of the system and the additional bounds. -/
def InUAt (uLo uUp : Vec K) (aLo aUp : Option (Vec K)) (u : Vec K) (i : ℕ) : Prop :=
  uLo.getD i 0 ≤ u.getD i 0 ∧ u.getD i 0 ≤ uUp.getD i 0 ∧ (∀ l, aLo = some l → l.getD i 0 ≤ u.getD i 0) ∧
    ∀ l, aUp = some l → u.getD i 0 ≤ l.getD i 0

/-- Entry `i` of the state is within its bounds. -/
def InXAt (xLo xUp x : Vec K) (i : ℕ) : Prop := xLo.getD i 0 ≤ x.getD i 0 ∧ x.getD i 0 ≤ xUp.getD i 0

/-- unicycle.py 72-79, 137-146: state `(x, y, θ)`, input `(v, θ̇)`; `(x, y)⁺ = (x, y) + φ(θ, v, θ̇) - φ(0, 0, 0)`,
`θ⁺ = θ + θ̇ dt`. The network has the input `θ̇` when `flag`. -/
def UniNext (φ : Vec K → Vec K) (flag : Bool) (dt : K) (x u y : Vec K) : Prop :=
  y.length = 3 ∧
    (∀ i, i < 2 → y.getD i 0 = x.getD i 0 +
      if flag then (φ [x.getD 2 0, u.getD 0 0, u.getD 1 0]).getD i 0 - (φ [0, 0, 0]).getD i 0
      else (φ [x.getD 2 0, u.getD 0 0]).getD i 0 - (φ [0, 0]).getD i 0) ∧
    y.getD 2 0 = x.getD 2 0 + u.getD 1 0 * dt

/-- unicycle.py 271-279: as `UniNext` with `φ(θ, v, θ̇) - φ(θ, 0, θ̇)`. -/
def ZeroNext (φ : Vec K → Vec K) (flag : Bool) (dt : K) (x u y : Vec K) : Prop :=
  y.length = 3 ∧
    (∀ i, i < 2 → y.getD i 0 = x.getD i 0 +
      if flag then (φ [x.getD 2 0, u.getD 0 0, u.getD 1 0]).getD i 0 - (φ [x.getD 2 0, 0, u.getD 1 0]).getD i 0
      else (φ [x.getD 2 0, u.getD 0 0]).getD i 0 - (φ [x.getD 2 0, 0]).getD i 0) ∧
    y.getD 2 0 = x.getD 2 0 + u.getD 1 0 * dt

/-- acceleration_car.py 66-78: state `(x, y, θ, v)`, input `(θ̇, a)`;
`(x, y)⁺ = (x, y) + φ(θ, v, θ̇, a) - φ(0, 0, 0, 0)`, `θ⁺ = θ + θ̇ dt`, `v⁺ = v + a dt`. -/
def CarNext (φ : Vec K → Vec K) (dt : K) (x u y : Vec K) : Prop :=
  y.length = 4 ∧
    (∀ i, i < 2 → y.getD i 0 = x.getD i 0 + ((φ [x.getD 2 0, x.getD 3 0, u.getD 0 0, u.getD 1 0]).getD i 0 -
      (φ [0, 0, 0, 0]).getD i 0)) ∧
    y.getD 2 0 = x.getD 2 0 + u.getD 0 0 * dt ∧ y.getD 3 0 = x.getD 3 0 + u.getD 1 0 * dt

/-- pole_relu_system.py 10-24: state `(x_AB, y_AB, x_A', y_A', z_A', x_AB', y_AB')`; the five velocities change by
`φ(x_AB, y_AB, x_AB', y_AB', u) - φ(0, 0, 0, 0, u*)`, `x_AB` and `y_AB` follow by the trapezoid rule. -/
def PoleNext (φ : Vec K → Vec K) (dt : K) (uEq x u y : Vec K) : Prop :=
  y.length = 7 ∧
    (∀ i, i < 5 → y.getD (2 + i) 0 = x.getD (2 + i) 0 +
      ((φ ([x.getD 0 0, x.getD 1 0, x.getD 5 0, x.getD 6 0] ++ u)).getD i 0 - (φ ([0, 0, 0, 0] ++ uEq)).getD i 0)) ∧
    ∀ i, i < 2 → y.getD i 0 = x.getD i 0 + dt / 2 * (y.getD (5 + i) 0 + x.getD (5 + i) 0)

/-- quadrotor.py 183-198: state `(pos, rpy, vel)`; `(vel, rpy)⁺ = (vel, rpy) + φ(rpy, u) - φ(0, u*)`, the position
follows by the trapezoid rule. -/
def PixNext (φ : Vec K → Vec K) (dt : K) (uEq x u y : Vec K) : Prop :=
  let d := fun i => (φ ([x.getD 3 0, x.getD 4 0, x.getD 5 0] ++ u)).getD i 0 - (φ ([0, 0, 0] ++ uEq)).getD i 0
  y.length = 9 ∧ ∀ i, i < 3 →
    y.getD i 0 = x.getD i 0 + dt / 2 * (y.getD (6 + i) 0 + x.getD (6 + i) 0) ∧
    y.getD (3 + i) 0 = x.getD (3 + i) 0 + d (3 + i) ∧
    y.getD (6 + i) 0 = x.getD (6 + i) 0 + d i

/-- quadrotor.py 367-379: state `(pos, rpy, posdot, ω)`;
`(rpy⁺, posdot⁺ - posdot, ω⁺) = φ(rpy, ω, u) - φ(0, 0, u*)`, the position follows by the trapezoid rule. -/
def QuadNext (φ : Vec K → Vec K) (dt : K) (uEq x u y : Vec K) : Prop :=
  let d := fun i => (φ ([x.getD 3 0, x.getD 4 0, x.getD 5 0, x.getD 9 0, x.getD 10 0, x.getD 11 0] ++ u)).getD i 0 -
    (φ ([0, 0, 0, 0, 0, 0] ++ uEq)).getD i 0
  y.length = 12 ∧ ∀ i, i < 3 →
    y.getD i 0 = x.getD i 0 + dt / 2 * (y.getD (6 + i) 0 + x.getD (6 + i) 0) ∧
    y.getD (3 + i) 0 = d i ∧
    y.getD (6 + i) 0 = x.getD (6 + i) 0 + d (3 + i) ∧
    y.getD (9 + i) 0 = d (6 + i)

/-- pendulum.py 135 (with the equilibrium of 152-153 instead of 0): `θ̈ = φ(θ, θ̇, u) - φ(x*, u*)`. -/
def PendNext (φ : Vec K → Vec K) (xEq uEq x u y : Vec K) : Prop :=
  y.length = 2 ∧ y.getD 0 0 = x.getD 1 0 ∧ y.getD 1 0 = (φ (x ++ u)).getD 0 0 - (φ (xEq ++ uEq)).getD 0 0

/-- quadrotor_2d.py 178: state `(q, q̇)`, `q = (x, z, θ)`; `q̈ = φ(θ, u) - φ(0, u*)`. -/
def Quad2Next (φ : Vec K → Vec K) (uEq x u y : Vec K) : Prop :=
  y.length = 6 ∧ ∀ i, i < 3 → y.getD i 0 = x.getD (3 + i) 0 ∧
    y.getD (3 + i) 0 = (φ ([x.getD 2 0] ++ u)).getD i 0 - (φ ([0] ++ uEq)).getD i 0

end NNL.Spec
