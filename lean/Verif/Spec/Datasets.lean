import Mathlib.Data.List.Basic

/-!
# Specification: generalized forces of a robot whose joints are partly actuated
-/

namespace NNL.Spec

/-- `tau` applies the control `u`: joints without a motor get no force, those with one get the entries of `u`, in
order. -/
structure Actuates {K : Type*} [Zero K] (motor : List Bool) (u tau : List K) : Prop where
  length : tau.length = motor.length
  free : ∀ i : ℕ, motor[i]? = some false → tau[i]? = some 0
  driven : ((motor.zip tau).filter fun p => p.1).map (fun p => p.2) = u

end NNL.Spec
