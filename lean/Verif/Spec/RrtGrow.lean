import Mathlib.Analysis.Calculus.Deriv.Basic

/-!
# Specification of the states a tree can contain
-/

namespace NNL.Spec

open Set

/-- Some motion of `ẋ = f (x, u)` with the constant control `u` leads from `y` to `z` in the time `dt`. -/
def Moves {n p : ℕ} (f : (Fin n → ℝ) → (Fin p → ℝ) → Fin n → ℝ) (u : Fin p → ℝ) (dt : ℝ) (y z : Fin n → ℝ) : Prop :=
  ∃ X : ℝ → Fin n → ℝ, X 0 = y ∧ X dt = z ∧ ∀ t ∈ Icc 0 dt, ∀ i, HasDerivWithinAt (fun s => X s i) (f (X t) u i) (Icc 0 dt) t

/-- A sequence of `k` motions of length `dt` with constant controls between `lo` and `up` leads from the first state to the second. -/
inductive Drives {n p : ℕ} (f : (Fin n → ℝ) → (Fin p → ℝ) → Fin n → ℝ) (lo up : Fin p → ℝ) (dt : ℝ) : ℕ → (Fin n → ℝ) → (Fin n → ℝ) → Prop
  | stay (x : Fin n → ℝ) : Drives f lo up dt 0 x x
  | move {k : ℕ} {x y z : Fin n → ℝ} (u : Fin p → ℝ) : Drives f lo up dt k x y → (∀ i, lo i ≤ u i ∧ u i ≤ up i) → Moves f u dt y z →
      Drives f lo up dt (k + 1) x z

end NNL.Spec
