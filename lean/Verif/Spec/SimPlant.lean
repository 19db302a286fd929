import Mathlib.Analysis.Calculus.Deriv.Basic
import Mathlib.Analysis.Calculus.Deriv.Prod

/-!
# Specification of simulations
-/

namespace NNL.Spec

open Set

/-- `X` is a motion of `ẋ = g x` on `[t0, t1]` from `x0`. -/
def SolvesIvp {n : ℕ} (g : (Fin n → ℝ) → Fin n → ℝ) (t0 t1 : ℝ) (x0 : Fin n → ℝ) (X : ℝ → Fin n → ℝ) : Prop :=
  X t0 = x0 ∧ ∀ t ∈ Icc t0 t1, ∀ i, HasDerivWithinAt (fun s => X s i) (g (X t) i) (Icc t0 t1) t

/-- The value of `v` cut off at the limits. -/
noncomputable def cutOff (lo up v : ℝ) : ℝ := if v < lo then lo else if up < v then up else v

/-- The dynamics depend on state and control in a Lipschitz way, for controls within the limits. -/
def LipschitzPlant {n p : ℕ} (f : (Fin n → ℝ) → (Fin p → ℝ) → Fin n → ℝ) (lo up : Fin p → ℝ) (L : ℝ) : Prop :=
  ∀ x x' u u' d, 0 ≤ d → (∀ i, |x i - x' i| ≤ d) → (∀ i, lo i ≤ u i ∧ u i ≤ up i) → (∀ i, lo i ≤ u' i ∧ u' i ≤ up i) →
    (∀ i, |u i - u' i| ≤ d) → ∀ i, |f x u i - f x' u' i| ≤ L * d

end NNL.Spec
