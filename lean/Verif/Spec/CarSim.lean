import Mathlib.Analysis.SpecialFunctions.Trigonometric.Basic
import Mathlib.Analysis.SpecialFunctions.Complex.Arg

/-!
# Specification of the sensors of the car
-/

namespace NNL.Spec

/-- The point at the distance `d` from the car in the direction which is `ψ` clockwise of its heading, at the height `h`. -/
noncomputable def sightPoint (h : ℝ) (s : Fin 3 → ℝ) (ψ d : ℝ) : Fin 3 → ℝ :=
  ![s 0 + d * Real.cos (s 2 - ψ), s 1 + d * Real.sin (s 2 - ψ), h]

/-- What a ray test returns for the obstacles `S`: the fraction of the segment before its first point in `S`, one if there is none. -/
def FirstHit (S : Set (Fin 3 → ℝ)) (cast : (Fin 3 → ℝ) → (Fin 3 → ℝ) → ℝ) : Prop :=
  ∀ a b, 0 ≤ cast a b ∧ cast a b ≤ 1 ∧ (∀ f, 0 ≤ f → f < cast a b → a + f • (b - a) ∉ S) ∧
    (cast a b < 1 → a + cast a b • (b - a) ∈ S)

/-- `d` is how far the car sees in the direction `ψ`, up to the distance `R`. -/
def SeesUpTo (S : Set (Fin 3 → ℝ)) (h R : ℝ) (s : Fin 3 → ℝ) (ψ d : ℝ) : Prop :=
  0 ≤ d ∧ d ≤ R ∧ (∀ r, 0 ≤ r → r < d → sightPoint h s ψ r ∉ S) ∧ (d < R → sightPoint h s ψ d ∈ S)

end NNL.Spec
