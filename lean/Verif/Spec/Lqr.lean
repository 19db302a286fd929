import Verif.Spec.Jacobian
import Mathlib.LinearAlgebra.Matrix.NonsingularInverse
import Mathlib.LinearAlgebra.Matrix.PosDef
import Mathlib.Analysis.SpecialFunctions.Exp
import Mathlib.MeasureTheory.Integral.IntervalIntegral.Basic

/-!
# Linear quadratic regulators
-/

namespace NNL.Spec

open Matrix Set

/-- `S` solves the continuous-time algebraic Riccati equation `AᵀS + SA - S B R⁻¹ Bᵀ S + Q = 0`. -/
def Riccati {n p : ℕ} (A : Matrix (Fin n) (Fin n) ℝ) (B : Matrix (Fin n) (Fin p) ℝ) (Q : Matrix (Fin n) (Fin n) ℝ)
    (R : Matrix (Fin p) (Fin p) ℝ) (S : Matrix (Fin n) (Fin n) ℝ) : Prop :=
  Aᵀ * S + S * A - S * B * R⁻¹ * Bᵀ * S + Q = 0

/-- A routine which, when it returns, returns a positive definite solution of the Riccati equation (for positive definite
costs). -/
def RiccatiSolver {n p : ℕ} (care : Matrix (Fin n) (Fin n) ℝ → Matrix (Fin n) (Fin p) ℝ → Matrix (Fin n) (Fin n) ℝ →
    Matrix (Fin p) (Fin p) ℝ → Option (Matrix (Fin n) (Fin n) ℝ)) : Prop :=
  ∀ A B Q R S, Q.PosDef → R.PosDef → care A B Q R = some S → Riccati A B Q R S ∧ S.PosDef

/-- The quadratic cost `(x-x*)ᵀ Q (x-x*) + (u-u*)ᵀ R (u-u*)` per unit of time. -/
def runningCost {n p : ℕ} (Q : Matrix (Fin n) (Fin n) ℝ) (R : Matrix (Fin p) (Fin p) ℝ) (xe : Fin n → ℝ) (ue : Fin p → ℝ)
    (x : Fin n → ℝ) (u : Fin p → ℝ) : ℝ :=
  (x - xe) ⬝ᵥ Q *ᵥ (x - xe) + (u - ue) ⬝ᵥ R *ᵥ (u - ue)

/-- The quadratic cost of the motion `X` under the inputs `U` from time `0` to time `T`. -/
noncomputable def totalCost {n p : ℕ} (Q : Matrix (Fin n) (Fin n) ℝ) (R : Matrix (Fin p) (Fin p) ℝ) (xe : Fin n → ℝ)
    (ue : Fin p → ℝ) (X : ℝ → Fin n → ℝ) (U : ℝ → Fin p → ℝ) (T : ℝ) : ℝ :=
  ∫ t in (0 : ℝ)..T, runningCost Q R xe ue (X t) (U t)

/-- The plant linearised at `(xe, ue)`: `xdot = A (x - xe) + B (u - ue)`. -/
def linearised {n p : ℕ} (A : Matrix (Fin n) (Fin n) ℝ) (B : Matrix (Fin n) (Fin p) ℝ) (xe : Fin n → ℝ) (ue : Fin p → ℝ)
    (x : Fin n → ℝ) (u : Fin p → ℝ) : Fin n → ℝ :=
  A *ᵥ (x - xe) + B *ᵥ (u - ue)

/-- `X` is a motion, from time `0` on, of `xdot = f(x, u)` under the inputs `U`. -/
def Motion {n p : ℕ} (f : (Fin n → ℝ) → (Fin p → ℝ) → Fin n → ℝ) (X : ℝ → Fin n → ℝ) (U : ℝ → Fin p → ℝ) : Prop :=
  ∀ t, 0 ≤ t → ∀ i, HasDerivWithinAt (fun s => X s i) (f (X t) (U t) i) (Ici 0) t

/-- The policy `π` makes `xe` exponentially stable for `xdot = f(x, u)`, locally: every motion which starts close enough to
`xe` converges to it at an exponential rate. -/
def LocallyExpStable {n p : ℕ} (f : (Fin n → ℝ) → (Fin p → ℝ) → Fin n → ℝ) (π : (Fin n → ℝ) → Fin p → ℝ)
    (xe : Fin n → ℝ) : Prop :=
  ∃ δ M c : ℝ, 0 < δ ∧ 0 < M ∧ 0 < c ∧ ∀ X : ℝ → Fin n → ℝ, Motion f X (fun t => π (X t)) → ‖X 0 - xe‖ < δ →
    ∀ t, 0 ≤ t → ‖X t - xe‖ ≤ M * Real.exp (-(c * t)) * ‖X 0 - xe‖

/-- The total costs, over an infinite horizon, of the motions of the linearised plant which start at `x0` (under continuous
inputs, and as far as the cost is finite). -/
def achievableCosts {n p : ℕ} (A : Matrix (Fin n) (Fin n) ℝ) (B : Matrix (Fin n) (Fin p) ℝ) (Q : Matrix (Fin n) (Fin n) ℝ)
    (R : Matrix (Fin p) (Fin p) ℝ) (xe : Fin n → ℝ) (ue : Fin p → ℝ) (x0 : Fin n → ℝ) : Set ℝ :=
  {J | ∃ X U, Motion (linearised A B xe ue) X U ∧ ContinuousOn U (Ici 0) ∧ X 0 = x0 ∧
    Filter.Tendsto (totalCost Q R xe ue X U) Filter.atTop (nhds J)}

end NNL.Spec
