import Verif.Model.ExampleSystems
import Verif.Model.ReluSystemNew

/-!
# The constructors of the network models of `neural_network_lyapunov/examples`

A constructor that raises is `none`. `isinstance` and `dtype` are not modelled. `network_bound_propagate_method` can be set
later, and is an argument here.
-/

set_option linter.unusedSectionVars false

namespace NNL.Model

open NNL NNL.Spec

variable {K : Type*} [Field K] [LinearOrder K]

/-- The arguments. `thrust` is `hover_thrust` or `u_z_equilibrium`, `uEq` is `u_equilibrium`. -/
structure ExArgs (K : Type*) where
  xLo : Vec K
  xUp : Vec K
  uLo : Vec K
  uUp : Vec K
  net : Net K
  thrust : K
  uEq : Vec K
  dt : K
  method : Method K

/-- unicycle.py 81-125 `UnicycleReLUModel.__init__`, and 281-299 `UnicycleReLUZeroVelModel.__init__`. -/
def ExArgs.unicycle (a : ExArgs K) (flag : Bool) : Option (ExSys K) :=
  if a.xLo.length = 3 ∧ a.uLo.length = 2 ∧ a.uUp.length = 2 ∧ a.net.inFeatures = (if flag then 3 else 2) ∧
      a.net.outFeatures = 2 ∧ a.dt > 0 then
    some ⟨a.xLo, a.xUp, a.uLo, a.uUp, a.net, zeros 2, a.dt, a.method⟩
  else none

/-- acceleration_car.py 60-95 `AccelerationCarReLUModel.__init__`. -/
def ExArgs.car (a : ExArgs K) : Option (ExSys K) :=
  if a.xLo.length = 4 ∧ a.uLo.length = 2 ∧ a.uUp.length = 2 ∧ a.net.inFeatures = 4 ∧ a.net.outFeatures = 2 ∧
      a.dt > 0 then
    some ⟨a.xLo, a.xUp, a.uLo, a.uUp, a.net, zeros 2, a.dt, a.method⟩
  else none

/-- pole_relu_system.py 21-53 `PoleReluSystem.__init__`. -/
def ExArgs.pole (a : ExArgs K) : Option (ExSys K) :=
  if a.xLo.length = 7 ∧ a.xUp.length = 7 ∧ a.net.inFeatures = 7 ∧ a.net.outFeatures = 5 then
    some ⟨a.xLo, a.xUp, a.uLo, a.uUp, a.net, [0, 0, a.thrust], a.dt, a.method⟩
  else none

/-- quadrotor.py 207-242 `QuadrotorWithPixhawkReLUSystem.__init__`. -/
def ExArgs.pixhawk (a : ExArgs K) : Option (ExSys K) :=
  if a.xLo.length = 9 ∧ a.xUp.length = 9 ∧ a.uLo.length = 4 ∧ a.uUp.length = 4 ∧ a.net.inFeatures = 7 ∧
      a.net.outFeatures = 6 ∧ a.dt > 0 then
    some ⟨a.xLo, a.xUp, a.uLo, a.uUp, a.net, [0, 0, 0, a.thrust], a.dt, a.method⟩
  else none

/-- quadrotor.py 380-416 `QuadrotorReLUSystem.__init__`. -/
def ExArgs.quadrotor (a : ExArgs K) : Option (ExSys K) :=
  if a.xLo.length = 12 ∧ a.xUp.length = 12 ∧ a.uLo.length = 4 ∧ a.uUp.length = 4 ∧ a.net.inFeatures = 10 ∧
      a.net.outFeatures = 9 ∧ a.dt > 0 then
    some ⟨a.xLo, a.xUp, a.uLo, a.uUp, a.net, vsmul a.thrust (List.replicate 4 1), a.dt, a.method⟩
  else none

/-- pendulum.py 137-157 `PendulumReluContinuousTime.__init__`; the field `dt`, which it does not have, is filled. -/
def ExArgs.pendulum (a : ExArgs K) : Option (ExSys K) :=
  if a.xLo.length = 2 ∧ a.xUp.length = 2 ∧ a.uLo.length = 1 ∧ a.uUp.length = 1 ∧ a.net.inFeatures = 3 ∧
      a.net.outFeatures = 1 then
    some ⟨a.xLo, a.xUp, a.uLo, a.uUp, a.net, [0], 0, a.method⟩
  else none

/-- quadrotor_2d.py 180-201 `QuadrotorReluContinuousTime.__init__`; the field `dt`, which it does not have, is filled. -/
def ExArgs.quadrotor2d (a : ExArgs K) : Option (ExSys K) :=
  if a.xLo.length = 6 ∧ a.xUp.length = 6 ∧ a.uLo.length = 2 ∧ a.uUp.length = 2 ∧ a.net.inFeatures = 3 ∧
      a.net.outFeatures = 3 then
    some ⟨a.xLo, a.xUp, a.uLo, a.uUp, a.net, a.uEq, 0, a.method⟩
  else none

end NNL.Model
