import Verif.Model.Geometry
import Mathlib.LinearAlgebra.CrossProduct
import Mathlib.LinearAlgebra.Matrix.NonsingularInverse

/-!
# The physical models of the examples

`Unicycle`, `AccelerationCar`, `Pendulum`, `Quadrotor2D`, `Rocket`, `Rocket2`, `Quadrotor` and `Pole`: continuous-time
dynamics and their gradients, with real numbers and exact trigonometric functions.  Arrays of a fixed shape are functions on
`Fin n`; a matrix filled entry by entry in the code is written as a literal.  The attributes are parameters; the values the
constructors give them are the `init` definitions.
-/

namespace NNL.Model

open Real Matrix

/-! ## `examples/car/unicycle.py`, `examples/car/acceleration_car.py` -/

/-- unicycle.py 23-35 `Unicycle.dynamics` (both branches return the same entries). -/
noncomputable def unicycleDyn (x : Fin 3 → ℝ) (u : Fin 2 → ℝ) : Fin 3 → ℝ :=
  ![u 0 * cos (x 2), u 0 * sin (x 2), u 1]

/-- unicycle.py 43-48 `Unicycle.dynamics_gradient` for an array. -/
noncomputable def unicycleGradNp (x : Fin 3 → ℝ) (u : Fin 2 → ℝ) :
    Matrix (Fin 3) (Fin 3) ℝ × Matrix (Fin 3) (Fin 2) ℝ :=
  (!![0, 0, -u 0 * sin (x 2); 0, 0, u 0 * cos (x 2); 0, 0, 0], !![cos (x 2), 0; sin (x 2), 0; 0, 1])

/-- In-place assignment `A[i, j] = a`. -/
def setAt {m n : ℕ} (A : Matrix (Fin m) (Fin n) ℝ) (i : Fin m) (j : Fin n) (a : ℝ) : Matrix (Fin m) (Fin n) ℝ :=
  fun i' j' => if i' = i ∧ j' = j then a else A i' j'

/-- unicycle.py 49-59 `Unicycle.dynamics_gradient` for a tensor. -/
noncomputable def unicycleGradTorch (x : Fin 3 → ℝ) (u : Fin 2 → ℝ) :
    Matrix (Fin 3) (Fin 3) ℝ × Matrix (Fin 3) (Fin 2) ℝ :=
  let A := setAt 0 0 2 (-u 0 * sin (x 2))
  let A := setAt A 1 2 (u 0 * cos (x 2))
  let B := setAt 0 0 0 (cos (x 2))
  let B := setAt B 1 0 (sin (x 2))
  let B := setAt B 2 1 1
  (A, B)

/-- acceleration_car.py 29-31 `AccelerationCar.dynamics` for an array. -/
noncomputable def accCarDynNp (x : Fin 4 → ℝ) (u : Fin 2 → ℝ) : Fin 4 → ℝ :=
  ![cos (x 2) * x 3, sin (x 2) * x 3, u 0, u 1]

/-- `torch.cat` of tensors given by their shape and entries: it raises (`none`) on a tensor without dimensions
(documented: zero-dimensional tensors cannot be concatenated). -/
def torchCat (l : List (List ℕ × List ℝ)) : Option (List ℝ) :=
  if ∀ t ∈ l, t.1 ≠ [] then some (l.flatMap Prod.snd) else none

/-- acceleration_car.py 32-34 `AccelerationCar.dynamics` for a tensor: entries `x[i]`, `u[i]` of one-dimensional tensors have
no dimensions, nor have their products. -/
noncomputable def accCarDynTorch (x : Fin 4 → ℝ) (u : Fin 2 → ℝ) : Option (List ℝ) :=
  torchCat [([], [cos (x 2) * x 3]), ([], [sin (x 2) * x 3]), ([], [u 0]), ([], [u 1])]

/-! ## `examples/pendulum/pendulum.py` -/

/-- The attributes of `Pendulum`. -/
structure Pendulum where
  mass : ℝ
  gravity : ℝ
  length : ℝ
  damping : ℝ

/-- pendulum.py 16-21 `Pendulum.__init__`. -/
noncomputable def Pendulum.init : Pendulum := ⟨1, 9.81, 1, 0.1⟩

/-- pendulum.py 23-35 `Pendulum.dynamics` (both branches). -/
noncomputable def Pendulum.dyn (P : Pendulum) (x : Fin 2 → ℝ) (u : Fin 1 → ℝ) : Fin 2 → ℝ :=
  ![x 1, (u 0 - P.mass * P.gravity * P.length * sin (x 0) - P.damping * x 1) / (P.mass * P.length * P.length)]

/-- pendulum.py 37-42 `Pendulum.potential_energy`. -/
noncomputable def Pendulum.potential (P : Pendulum) (x : Fin 2 → ℝ) : ℝ :=
  -P.mass * P.gravity * P.length * cos (x 0)

/-- pendulum.py 44-49 `Pendulum.kinetic_energy`. -/
noncomputable def Pendulum.kinetic (P : Pendulum) (x : Fin 2 → ℝ) : ℝ :=
  0.5 * P.mass * (P.length * x 1) ^ 2

/-- pendulum.py 51-61 `Pendulum.energy_shaping_control`. -/
noncomputable def Pendulum.shaping (P : Pendulum) (x xd : Fin 2 → ℝ) (gain : ℝ) : Fin 1 → ℝ :=
  let Ed := P.potential xd + P.kinetic xd
  let E := P.potential x + P.kinetic x
  ![if x 1 = 0 then -gain * (E - Ed) else -gain * x 1 * (E - Ed)]

/-- pendulum.py 63-76 `Pendulum.dynamics_gradient`. -/
noncomputable def Pendulum.grad (P : Pendulum) (x : Fin 2 → ℝ) : Matrix (Fin 2) (Fin 2) ℝ × Matrix (Fin 2) (Fin 1) ℝ :=
  (!![0, 1; -P.gravity / P.length * cos (x 0), -P.damping / (P.mass * P.length * P.length)],
    !![0; 1 / (P.mass * P.length * P.length)])

/-! ## `examples/quadrotor2d/quadrotor_2d.py` -/

/-- The attributes of `Quadrotor2D` and of `Rocket`. -/
structure Planar where
  length : ℝ
  mass : ℝ
  inertia : ℝ
  gravity : ℝ

/-- quadrotor_2d.py 13-22 `Quadrotor2D.__init__`. -/
noncomputable def Planar.quad : Planar := ⟨0.25, 0.486, 0.00383, 9.81⟩

/-- quadrotor_2d.py 24-42 `Quadrotor2D.dynamics` (both branches). -/
noncomputable def Planar.quadDyn (P : Planar) (x : Fin 6 → ℝ) (u : Fin 2 → ℝ) : Fin 6 → ℝ :=
  ![x 3, x 4, x 5, -sin (x 2) / P.mass * (u 0 + u 1), cos (x 2) / P.mass * (u 0 + u 1) - P.gravity,
    P.length / P.inertia * (u 0 - u 1)]

/-- quadrotor_2d.py 44-76 `Quadrotor2D.linearized_dynamics` (both branches). -/
noncomputable def Planar.quadGrad (P : Planar) (x : Fin 6 → ℝ) (u : Fin 2 → ℝ) :
    Matrix (Fin 6) (Fin 6) ℝ × Matrix (Fin 6) (Fin 2) ℝ :=
  (!![0, 0, 0, 1, 0, 0; 0, 0, 0, 0, 1, 0; 0, 0, 0, 0, 0, 1;
      0, 0, -cos (x 2) / P.mass * (u 0 + u 1), 0, 0, 0;
      0, 0, -sin (x 2) / P.mass * (u 0 + u 1), 0, 0, 0;
      0, 0, 0, 0, 0, 0],
   !![0, 0; 0, 0; 0, 0;
      -sin (x 2) / P.mass, -sin (x 2) / P.mass;
      cos (x 2) / P.mass, cos (x 2) / P.mass;
      P.length / P.inertia, -(P.length / P.inertia)])

/-- quadrotor_2d.py 79-81 `Quadrotor2D.u_equilibrium`. -/
noncomputable def Planar.quadHover (P : Planar) : Fin 2 → ℝ := fun _ => P.mass * P.gravity / 2

/-! ## `examples/rocket/rocket.py` -/

/-- rocket.py 11-15 `Rocket.__init__`. -/
noncomputable def Planar.rocket : Planar := ⟨0.2, 0.5, 0.005, 9.81⟩

/-- rocket.py 18-19 `Rocket.hover_thrust`. -/
noncomputable def Planar.hoverThrust (P : Planar) : ℝ := P.mass * P.gravity

/-- rocket.py 21-42 `Rocket.dynamics` (both branches). -/
noncomputable def Planar.rocketDyn (P : Planar) (x : Fin 6 → ℝ) (u : Fin 2 → ℝ) : Fin 6 → ℝ :=
  ![x 3, x 4, x 5, (cos (x 2) * u 0 - sin (x 2) * u 1) / P.mass,
    (sin (x 2) * u 0 + cos (x 2) * u 1) / P.mass - P.gravity, P.length / 2 * u 0 / P.inertia]

/-- rocket.py 44-57 `Rocket.linearized_dynamics`. -/
noncomputable def Planar.rocketGrad (P : Planar) (x : Fin 6 → ℝ) (u : Fin 2 → ℝ) :
    Matrix (Fin 6) (Fin 6) ℝ × Matrix (Fin 6) (Fin 2) ℝ :=
  (!![0, 0, 0, 1, 0, 0; 0, 0, 0, 0, 1, 0; 0, 0, 0, 0, 0, 1;
      0, 0, (-sin (x 2) * u 0 - cos (x 2) * u 1) / P.mass, 0, 0, 0;
      0, 0, (cos (x 2) * u 0 - sin (x 2) * u 1) / P.mass, 0, 0, 0;
      0, 0, 0, 0, 0, 0],
   !![0, 0; 0, 0; 0, 0;
      cos (x 2) / P.mass, -sin (x 2) / P.mass;
      sin (x 2) / P.mass, cos (x 2) / P.mass;
      P.length / (2 * P.inertia), 0])

/-- rocket.py 69-99 `Rocket2.dynamics` (both branches). -/
noncomputable def Planar.rocket2Dyn (P : Planar) (x : Fin 6 → ℝ) (u : Fin 2 → ℝ) : Fin 6 → ℝ :=
  let c := cos (x 2)
  let s := sin (x 2)
  let w := x 5
  let wd := P.length * u 0 / (2 * P.inertia)
  let cdd := -s * wd - c * w ^ 2
  let sdd := c * wd - s * w ^ 2
  let xdd := (c * u 0 - s * u 1) / P.mass + P.length / 2 * sdd
  let zdd := (s * u 0 + c * u 1) / P.mass - P.gravity - P.length / 2 * cdd
  ![x 3, x 4, x 5, xdd, zdd, wd]

/-- rocket.py 101-128 `Rocket2.linearized_dynamics`. -/
noncomputable def Planar.rocket2Grad (P : Planar) (x : Fin 6 → ℝ) (u : Fin 2 → ℝ) :
    Matrix (Fin 6) (Fin 6) ℝ × Matrix (Fin 6) (Fin 2) ℝ :=
  let s := sin (x 2)
  let c := cos (x 2)
  let w := x 5
  (!![0, 0, 0, 1, 0, 0; 0, 0, 0, 0, 1, 0; 0, 0, 0, 0, 0, 1;
      0, 0, (-s * u 0 - c * u 1) / P.mass + P.length / 2 * (-s * P.length * u 0 / (2 * P.inertia) - c * w ^ 2), 0, 0,
        P.length / 2 * (-s) * 2 * w;
      0, 0, (c * u 0 - s * u 1) / P.mass + P.length / 2 * (c * P.length * u 0 / (2 * P.inertia) - s * w ^ 2), 0, 0,
        P.length / 2 * c * 2 * w;
      0, 0, 0, 0, 0, 0],
   !![0, 0; 0, 0; 0, 0;
      c / P.mass + P.length ^ 2 / 4 * c / P.inertia, -s / P.mass;
      s / P.mass + P.length ^ 2 * s / (4 * P.inertia), c / P.mass;
      P.length / (2 * P.inertia), 0])

/-! ## `examples/quadrotor3d/quadrotor.py` -/

/-- The attributes of `Quadrotor`. -/
structure Quad3 where
  mass : ℝ
  gravity : ℝ
  arm : ℝ
  inertia : Fin 3 → ℝ
  zFactor : ℝ
  hover : ℝ

/-- quadrotor.py 22-36 `Quadrotor.__init__`. -/
noncomputable def Quad3.init : Quad3 := ⟨0.468, 9.81, 0.225, ![4.9e-3, 4.9e-3, 8.8e-3], 1.1 / 29, 0.468 * 9.81 / 4⟩

/-- quadrotor.py 50-58 (and 81-90): `plant_input`, the thrust and the torques of the propellers. -/
noncomputable def Quad3.plant (P : Quad3) (u : Fin 4 → ℝ) : Fin 4 → ℝ :=
  !![1, 1, 1, 1; 0, P.arm, 0, -P.arm; -P.arm, 0, P.arm, 0; P.zFactor, -P.zFactor, P.zFactor, -P.zFactor] *ᵥ u

/-- quadrotor.py 74-77: the matrix from the angular velocity to the rates of roll, pitch and yaw. -/
noncomputable def rpyRate (x : Fin 12 → ℝ) : Mat3 :=
  !![1, sin (x 3) * tan (x 4), cos (x 3) * tan (x 4); 0, cos (x 3), -sin (x 3);
    0, sin (x 3) / cos (x 4), cos (x 3) / cos (x 4)]

/-- quadrotor.py 38-78 `Quadrotor.dynamics` for an array. -/
noncomputable def Quad3.dynNp (P : Quad3) (x : Fin 12 → ℝ) (u : Fin 4 → ℝ) : Fin 12 → ℝ :=
  let p := P.plant u
  let R := rpy2rotmatNp (x 3) (x 4) (x 5)
  let acc : Fin 3 → ℝ := fun i => ![0, 0, -P.gravity] i + (R *ᵥ ![0, 0, p 0]) i / P.mass
  let w : Fin 3 → ℝ := ![x 9, x 10, x 11]
  let wd : Fin 3 → ℝ := fun i => (crossProduct (-w) (P.inertia * w) i + ![p 1, p 2, p 3] i) / P.inertia i
  let r := rpyRate x *ᵥ w
  ![x 6, x 7, x 8, r 0, r 1, r 2, acc 0, acc 1, acc 2, wd 0, wd 1, wd 2]

/-- quadrotor.py 79-116 `Quadrotor.dynamics` for a tensor. -/
noncomputable def Quad3.dynTorch (P : Quad3) (x : Fin 12 → ℝ) (u : Fin 4 → ℝ) : Fin 12 → ℝ :=
  let p := P.plant u
  let R := rpy2rotmatTorch (x 3) (x 4) (x 5)
  let acc : Fin 3 → ℝ := fun i => ![0, 0, -P.gravity] i + R i 2 * p 0 / P.mass
  let w : Fin 3 → ℝ := ![x 9, x 10, x 11]
  let wd : Fin 3 → ℝ := fun i => (crossProduct (-w) (P.inertia * w) i + ![p 1, p 2, p 3] i) / P.inertia i
  let T : Mat3 := setEntry 0 0 0 1
  let T := setEntry T 0 1 (sin (x 3) * tan (x 4))
  let T := setEntry T 0 2 (cos (x 3) * tan (x 4))
  let T := setEntry T 1 1 (cos (x 3))
  let T := setEntry T 1 2 (-sin (x 3))
  let T := setEntry T 2 1 (sin (x 3) / cos (x 4))
  let T := setEntry T 2 2 (cos (x 3) / cos (x 4))
  let r := T *ᵥ w
  ![x 6, x 7, x 8, r 0, r 1, r 2, acc 0, acc 1, acc 2, wd 0, wd 1, wd 2]

/-- quadrotor.py 118-187 `Quadrotor.dynamics_gradient`: the first matrix. -/
noncomputable def Quad3.gradX (P : Quad3) (x : Fin 12 → ℝ) (u : Fin 4 → ℝ) : Matrix (Fin 12) (Fin 12) ℝ :=
  let w : Fin 3 → ℝ := ![x 9, x 10, x 11]
  let sr := sin (x 3)
  let cr := cos (x 3)
  let tp := tan (x 4)
  let cp := cos (x 4)
  let sec := 1 / cp
  let dr : Fin 3 → ℝ := !![0, cr * tp, -sr * tp; 0, -sr, -cr; 0, cr / cp, -sr / cp] *ᵥ w
  let dp : Fin 3 → ℝ := !![0, sr * sec ^ 2, cr * sec ^ 2; 0, 0, 0; 0, sr * tp * sec, cr * tp * sec] *ᵥ w
  let dw : Mat3 := !![1, sr * tp, cr * tp; 0, cr, -sr; 0, sr / cp, cr / cp]
  let g := rpyGradNp (x 3) (x 4) (x 5)
  let sum : ℝ := u 0 + u 1 + u 2 + u 3
  let ar : Fin 3 → ℝ := fun i => (g.1 *ᵥ ![0, 0, sum]) i / P.mass
  let ap : Fin 3 → ℝ := fun i => (g.2.1 *ᵥ ![0, 0, sum]) i / P.mass
  let ay : Fin 3 → ℝ := fun i => (g.2.2 *ᵥ ![0, 0, sum]) i / P.mass
  let I := P.inertia
  let k0 := (I 1 - I 2) / I 0
  let k1 := (I 2 - I 0) / I 1
  let k2 := (I 0 - I 1) / I 2
  !![0, 0, 0, 0, 0, 0, 1, 0, 0, 0, 0, 0;
     0, 0, 0, 0, 0, 0, 0, 1, 0, 0, 0, 0;
     0, 0, 0, 0, 0, 0, 0, 0, 1, 0, 0, 0;
     0, 0, 0, dr 0, dp 0, 0, 0, 0, 0, dw 0 0, dw 0 1, dw 0 2;
     0, 0, 0, dr 1, dp 1, 0, 0, 0, 0, dw 1 0, dw 1 1, dw 1 2;
     0, 0, 0, dr 2, dp 2, 0, 0, 0, 0, dw 2 0, dw 2 1, dw 2 2;
     0, 0, 0, ar 0, ap 0, ay 0, 0, 0, 0, 0, 0, 0;
     0, 0, 0, ar 1, ap 1, ay 1, 0, 0, 0, 0, 0, 0;
     0, 0, 0, ar 2, ap 2, ay 2, 0, 0, 0, 0, 0, 0;
     0, 0, 0, 0, 0, 0, 0, 0, 0, 0, k0 * w 2, k0 * w 1;
     0, 0, 0, 0, 0, 0, 0, 0, 0, k1 * w 2, 0, k1 * w 0;
     0, 0, 0, 0, 0, 0, 0, 0, 0, k2 * w 1, k2 * w 0, 0]

/-- quadrotor.py 161-163 and 179-186 `Quadrotor.dynamics_gradient`: the second matrix. -/
noncomputable def Quad3.gradU (P : Quad3) (x : Fin 12 → ℝ) : Matrix (Fin 12) (Fin 4) ℝ :=
  let b : Fin 3 → ℝ := fun i => (rpy2rotmatNp (x 3) (x 4) (x 5) *ᵥ ![0, 0, 1]) i / P.mass
  let I := P.inertia
  !![0, 0, 0, 0; 0, 0, 0, 0; 0, 0, 0, 0; 0, 0, 0, 0; 0, 0, 0, 0; 0, 0, 0, 0;
     b 0, b 0, b 0, b 0; b 1, b 1, b 1, b 1; b 2, b 2, b 2, b 2;
     0 / I 0, P.arm / I 0, 0 / I 0, -P.arm / I 0;
     -P.arm / I 1, 0 / I 1, P.arm / I 1, 0 / I 1;
     P.zFactor / I 2, -P.zFactor / I 2, P.zFactor / I 2, -P.zFactor / I 2]

/-! ## `examples/pole/pole.py` -/

/-- The attributes of `Pole`. -/
structure PoleDyn where
  mSphere : ℝ
  mEe : ℝ
  length : ℝ
  gravity : ℝ

/-- pole.py 42 (and 78): the vertical distance between the sphere and the end effector. -/
noncomputable def PoleDyn.z (P : PoleDyn) (x : Fin 7 → ℝ) : ℝ := √(P.length ^ 2 - x 0 ^ 2 - x 1 ^ 2)

/-- pole.py 43-59 (and 79-94): the mass matrix. -/
noncomputable def PoleDyn.M (P : PoleDyn) (x : Fin 7 → ℝ) : Matrix (Fin 5) (Fin 5) ℝ :=
  let m := P.mSphere
  let z := P.z x
  !![m + P.mEe, 0, 0, m, 0;
     0, m + P.mEe, 0, 0, m;
     0, 0, m + P.mEe, -m * x 0 / z, -m * x 1 / z;
     m, 0, -m * x 0 / z, m + m * (x 0 / z) ^ 2, m * x 0 * x 1 / z ^ 2;
     0, m, -m * x 1 / z, m * x 0 * x 1 / z ^ 2, m + m * (x 1 / z) ^ 2]

/-- pole.py 60-74 (and 95-109): gravity and the terms quadratic in the velocity. -/
noncomputable def PoleDyn.C (P : PoleDyn) (x : Fin 7 → ℝ) : Fin 5 → ℝ :=
  let m := P.mSphere
  let z := P.z x
  ![0, 0,
    (P.mEe + m) * P.gravity - m * (x 5 ^ 2 * (P.length ^ 2 - x 1 ^ 2) / z ^ 3 +
      x 6 ^ 2 * (P.length ^ 2 - x 0 ^ 2) / z ^ 3 - 2 * x 0 * x 1 * x 5 * x 6 / z ^ 3),
    -m * P.gravity * x 0 / z + m * x 0 * ((x 5 ^ 2 + x 6 ^ 2) / z ^ 2 + (x 0 * x 5 + x 1 * x 6) ^ 2 / z ^ 4),
    -m * P.gravity * x 1 / z + m * x 1 * ((x 5 ^ 2 + x 6 ^ 2) / z ^ 2 + (x 0 * x 5 + x 1 * x 6) ^ 2 / z ^ 4)]

open Classical in
/-- pole.py 75-76 (and 110-113): `vdot = solve(M, [u; 0] - C)`, and the time derivative of the state.  `numpy.linalg.solve`
is the inverse applied to the vector; it raises when the matrix is singular. -/
noncomputable def PoleDyn.dyn (P : PoleDyn) (x : Fin 7 → ℝ) (u : Fin 3 → ℝ) : Option (Fin 7 → ℝ) :=
  if (P.M x).det = 0 then none
  else
    let v := (P.M x)⁻¹ *ᵥ (![u 0, u 1, u 2, 0, 0] - P.C x)
    some ![x 5, x 6, v 0, v 1, v 2, v 3, v 4]

end NNL.Model
