import Mathlib.LinearAlgebra.Matrix.Notation
import Mathlib.Analysis.SpecialFunctions.Trigonometric.Basic

/-!
# `geometry_transform.py`

Exact cosine and sine over the reals; 3 by 3 arrays.
-/

namespace NNL.Model

open Real

abbrev Mat3 := Matrix (Fin 3) (Fin 3) ℝ

/-- In-place assignment `R[i, j] = a` (both `numpy` and `torch`). -/
def setEntry (R : Mat3) (i j : Fin 3) (a : ℝ) : Mat3 := fun i' j' => if i' = i ∧ j' = j then a else R i' j'

/-- geometry_transform.py 5-19 `rpy2rotmat` for an array: the three factors as literals, then
`R_yaw @ R_pitch @ R_roll`. -/
noncomputable def rpy2rotmatNp (roll pitch yaw : ℝ) : Mat3 :=
  let R_roll : Mat3 := !![1, 0, 0; 0, cos roll, -sin roll; 0, sin roll, cos roll]
  let R_pitch : Mat3 := !![cos pitch, 0, sin pitch; 0, 1, 0; -sin pitch, 0, cos pitch]
  let R_yaw : Mat3 := !![cos yaw, -sin yaw, 0; sin yaw, cos yaw, 0; 0, 0, 1]
  R_yaw * R_pitch * R_roll

/-- geometry_transform.py 27-32 (and 81-86): `R_roll` of the tensor branch. -/
noncomputable def torchRoll (roll : ℝ) : Mat3 :=
  let R := setEntry 0 0 0 1
  let R := setEntry R 1 1 (cos roll)
  let R := setEntry R 1 2 (-sin roll)
  let R := setEntry R 2 1 (sin roll)
  setEntry R 2 2 (cos roll)

/-- geometry_transform.py 33-38 (and 92-97): `R_pitch` of the tensor branch. -/
noncomputable def torchPitch (pitch : ℝ) : Mat3 :=
  let R := setEntry 0 1 1 1
  let R := setEntry R 0 0 (cos pitch)
  let R := setEntry R 0 2 (sin pitch)
  let R := setEntry R 2 0 (-sin pitch)
  setEntry R 2 2 (cos pitch)

/-- geometry_transform.py 39-44 (and 103-108): `R_yaw` of the tensor branch. -/
noncomputable def torchYaw (yaw : ℝ) : Mat3 :=
  let R := setEntry 0 0 0 (cos yaw)
  let R := setEntry R 0 1 (-sin yaw)
  let R := setEntry R 1 0 (sin yaw)
  let R := setEntry R 1 1 (cos yaw)
  setEntry R 2 2 1

/-- geometry_transform.py 20-45 `rpy2rotmat` for a tensor. -/
noncomputable def rpy2rotmatTorch (roll pitch yaw : ℝ) : Mat3 := torchYaw yaw * torchPitch pitch * torchRoll roll

/-- geometry_transform.py 48-73 `rpy2rotmat_gradient` for an array: the derivatives with respect to roll, pitch, yaw. -/
noncomputable def rpyGradNp (roll pitch yaw : ℝ) : Mat3 × Mat3 × Mat3 :=
  let R_roll : Mat3 := !![1, 0, 0; 0, cos roll, -sin roll; 0, sin roll, cos roll]
  let dR_roll : Mat3 := !![0, 0, 0; 0, -sin roll, -cos roll; 0, cos roll, -sin roll]
  let R_pitch : Mat3 := !![cos pitch, 0, sin pitch; 0, 1, 0; -sin pitch, 0, cos pitch]
  let dR_pitch : Mat3 := !![-sin pitch, 0, cos pitch; 0, 0, 0; -cos pitch, 0, -sin pitch]
  let R_yaw : Mat3 := !![cos yaw, -sin yaw, 0; sin yaw, cos yaw, 0; 0, 0, 1]
  let dR_yaw : Mat3 := !![-sin yaw, -cos yaw, 0; cos yaw, -sin yaw, 0; 0, 0, 0]
  (R_yaw * R_pitch * dR_roll, R_yaw * dR_pitch * R_roll, dR_yaw * R_pitch * R_roll)

/-- geometry_transform.py 87-91. -/
noncomputable def torchDRoll (roll : ℝ) : Mat3 :=
  let R := setEntry 0 1 1 (-sin roll)
  let R := setEntry R 1 2 (-cos roll)
  let R := setEntry R 2 1 (cos roll)
  setEntry R 2 2 (-sin roll)

/-- geometry_transform.py 98-102. -/
noncomputable def torchDPitch (pitch : ℝ) : Mat3 :=
  let R := setEntry 0 0 0 (-sin pitch)
  let R := setEntry R 0 2 (cos pitch)
  let R := setEntry R 2 0 (-cos pitch)
  setEntry R 2 2 (-sin pitch)

/-- geometry_transform.py 109-113. -/
noncomputable def torchDYaw (yaw : ℝ) : Mat3 :=
  let R := setEntry 0 0 0 (-sin yaw)
  let R := setEntry R 0 1 (-cos yaw)
  let R := setEntry R 1 0 (cos yaw)
  setEntry R 1 1 (-sin yaw)

/-- geometry_transform.py 74-117 `rpy2rotmat_gradient` for a tensor. -/
noncomputable def rpyGradTorch (roll pitch yaw : ℝ) : Mat3 × Mat3 × Mat3 :=
  (torchYaw yaw * torchPitch pitch * torchDRoll roll, torchYaw yaw * torchDPitch pitch * torchRoll roll,
    torchDYaw yaw * torchPitch pitch * torchRoll roll)

end NNL.Model
