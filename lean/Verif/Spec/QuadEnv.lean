import Verif.Model.Td3
import Mathlib.Analysis.Calculus.Deriv.Basic
import Mathlib.Analysis.Real.Pi.Bounds

/-!
# Specification of the quadrotor environment
-/

namespace NNL.Spec

open Set NNL.Model

/-- `next x u dt` is where some motion of `ẋ = f (x, u)` with the constant input `u` is after the time `dt` when it starts at `x`. -/
def Samples {n p : ℕ} (f : (Fin n → ℝ) → (Fin p → ℝ) → Fin n → ℝ) (next : (Fin n → ℝ) → (Fin p → ℝ) → ℝ → Fin n → ℝ) : Prop :=
  ∀ x u dt, 0 ≤ dt → ∃ X : ℝ → Fin n → ℝ, X 0 = x ∧
    (∀ t ∈ Icc 0 dt, ∀ i, HasDerivWithinAt (fun s => X s i) (f (X t) u i) (Icc 0 dt) t) ∧ next x u dt = X dt

/-- What a step costs: `10 (x² + z² + θ²) + ẋ² + ż² + ℓ / (2π) θ̇²` for the state and `(a² + ab + b²) / 10` for the deviations `a`, `b` of the
thrusts from the ones which carry the quadrotor. -/
noncomputable def hoverCost (len thrust : ℝ) (x : Fin 6 → ℝ) (u : Fin 2 → ℝ) : ℝ :=
  10 * (x 0 ^ 2 + x 1 ^ 2 + x 2 ^ 2) + x 3 ^ 2 + x 4 ^ 2 + len / (2 * Real.pi) * x 5 ^ 2 +
    ((u 0 - thrust) ^ 2 + (u 0 - thrust) * (u 1 - thrust) + (u 1 - thrust) ^ 2) / 10

/-- What an environment answers to a sequence of actions. -/
def answers {E O A K : Type} (G : GymEnv E O A K) (e : E) : List A → List (O × K × Bool) × E
  | [] => ([], e)
  | a :: as => ((G.step e a).1 :: (answers G (G.step e a).2 as).1, (answers G (G.step e a).2 as).2)

/-- What the environment answers in `k` steps under a policy, from the observation `o`. -/
def rollout {E O A K : Type} (G : GymEnv E O A K) (pol : O → A) : ℕ → E → O → List (O × K × Bool) × E
  | 0, e, _ => ([], e)
  | k + 1, e, o =>
    let r := G.step e (pol o)
    let z := rollout G pol k r.2 r.1.1
    (r.1 :: z.1, z.2)

/-- `num` episodes of `k` steps, each after a reset. -/
def rollouts {E O A K : Type} (G : GymEnv E O A K) (pol : O → A) (k : ℕ) : ℕ → E → List (List (O × K × Bool)) × E
  | 0, e => ([], e)
  | j + 1, e =>
    let r := rollout G pol k (G.reset e).2 (G.reset e).1
    let z := rollouts G pol k j r.2
    (r.1 :: z.1, z.2)

/-- The discounted return. -/
def discounted (γ : ℝ) : List ℝ → ℝ
  | [] => 0
  | r :: rs => r + γ * discounted γ rs

end NNL.Spec
