import Mathlib.LinearAlgebra.CrossProduct
import Mathlib.Analysis.SpecialFunctions.Trigonometric.Basic

/-!
# Rotations about an axis
-/

namespace NNL.Spec

open Real Matrix

/-- The vector `v` turned by the angle `θ` about the unit vector `k` (Rodrigues' formula). -/
noncomputable def turn (k : Fin 3 → ℝ) (θ : ℝ) (v : Fin 3 → ℝ) : Fin 3 → ℝ :=
  cos θ • v + sin θ • (crossProduct k v) + ((1 - cos θ) * (k ⬝ᵥ v)) • k

end NNL.Spec
