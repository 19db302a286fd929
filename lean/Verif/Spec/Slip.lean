import Mathlib.Analysis.Calculus.Deriv.Basic
import Mathlib.Analysis.SpecialFunctions.Trigonometric.Basic

/-!
# A spring loaded inverted pendulum: motions and touchdown
-/

namespace NNL.Spec

open Real

/-- A motion of `xdot = f(x)` leads from `x0` to `x1` in the time `T`. -/
def Flow {n : ℕ} (f : (Fin n → ℝ) → Fin n → ℝ) (x0 : Fin n → ℝ) (T : ℝ) (x1 : Fin n → ℝ) : Prop :=
  0 ≤ T ∧ ∃ X : ℝ → Fin n → ℝ, X 0 = x0 ∧ X T = x1 ∧
    ∀ t ∈ Set.Icc 0 T, ∀ i, HasDerivWithinAt (fun s => X s i) (f (X t) i) (Set.Icc 0 T) t

/-- Position of a mass on a leg of length `r` at the angle `θ` to the vertical, with the foot at `(xf, 0)`; the state is
`(r, θ, rdot, θdot, xf)`. -/
noncomputable def legMass (s : Fin 5 → ℝ) : Fin 2 → ℝ := ![s 4 - s 0 * sin (s 1), s 0 * cos (s 1)]

/-- The acceleration of a mass `m` under gravity and a spring of stiffness `k` and rest length `l0` along the leg, which
pushes away from the foot. -/
noncomputable def springAcc (m l0 k g : ℝ) (s : Fin 5 → ℝ) : Fin 2 → ℝ :=
  ![k * (l0 - s 0) / m * (-sin (s 1)), k * (l0 - s 0) / m * cos (s 1) - g]

/-- Position and velocity of a body thrown with position `(x, z)` and velocity `(vx, vz)`, after the time `t`. -/
noncomputable def thrown (g : ℝ) (s : Fin 4 → ℝ) (t : ℝ) : Fin 4 → ℝ :=
  ![s 0 + s 2 * t, s 1 + s 3 * t - g / 2 * t ^ 2, s 2, s 3 - g * t]

/-- The foot of a leg of length `l` below the mass, at the angle `θ` to the vertical: `(x + l sin θ, z - l cos θ)`. -/
noncomputable def foot (l θ : ℝ) (s : Fin 4 → ℝ) : ℝ × ℝ := (s 0 + l * sin θ, s 1 - l * cos θ)

/-- The foot of the thrown mass comes down to the height `h` at the time `t ≥ 0`: it is there at `t` and below afterwards. -/
def ComesDown (g l θ : ℝ) (s : Fin 4 → ℝ) (h t : ℝ) : Prop :=
  0 ≤ t ∧ (foot l θ (thrown g s t)).2 = h ∧ ∀ t' > t, (foot l θ (thrown g s t')).2 < h

/-- The signal `r` reaches the level `l` from below at the time `t`. -/
def CrossesUp (r : ℝ → ℝ) (l t : ℝ) : Prop := r t = l ∧ ∃ a ∈ Set.Ico 0 t, ∀ s ∈ Set.Ioo a t, r s < l

/-- `τ` is the first time after 0 at which `r` reaches the level `l` from below: the event of an integrator. -/
def FirstUp (r : ℝ → ℝ) (l τ : ℝ) : Prop := 0 < τ ∧ CrossesUp r l τ ∧ ∀ t ∈ Set.Ioo 0 τ, ¬ CrossesUp r l t

end NNL.Spec
