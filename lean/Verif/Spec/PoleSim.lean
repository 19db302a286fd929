import Verif.Spec.Lqr

/-!
# The pole balanced on a plate
-/

namespace NNL.Spec

open Matrix Set

/-- A routine which, when it returns (for positive definite costs), returns a positive definite solution `S` of the Riccati
equation, and the gain `K = R⁻¹ Bᵀ S`. -/
def LqrRoutine {n p : ℕ} (lqr : Matrix (Fin n) (Fin n) ℝ → Matrix (Fin n) (Fin p) ℝ → Matrix (Fin n) (Fin n) ℝ →
    Matrix (Fin p) (Fin p) ℝ → Option (Matrix (Fin p) (Fin n) ℝ × Matrix (Fin n) (Fin n) ℝ)) : Prop :=
  ∀ A B Q R K S, Q.PosDef → R.PosDef → lqr A B Q R = some (K, S) → Riccati A B Q R S ∧ S.PosDef ∧ R * K = Bᵀ * S

/-- Two point masses joined by a massless rod of length `l` move, from time `0` on, by Newton's laws: the plate (mass `mA`,
position `pA`, velocity `vA`), on which the force `f` acts, and the ball (`mB`, `pB`, `vB`), which stays above it.  The rod
pulls with a force along itself. -/
structure RodBodies (l mA mB g : ℝ) (pA vA pB vB f : ℝ → Fin 3 → ℝ) : Prop where
  velA : ∀ t, 0 ≤ t → ∀ i, HasDerivWithinAt (fun s => pA s i) (vA t i) (Ici 0) t
  velB : ∀ t, 0 ≤ t → ∀ i, HasDerivWithinAt (fun s => pB s i) (vB t i) (Ici 0) t
  rod : ∀ t, 0 ≤ t → (pB t - pA t) ⬝ᵥ (pB t - pA t) = l ^ 2
  above : ∀ t, 0 ≤ t → pA t 2 < pB t 2
  newton : ∀ t, 0 ≤ t → ∃ (aA aB : Fin 3 → ℝ) (T : ℝ),
    (∀ i, HasDerivWithinAt (fun s => vA s i) (aA i) (Ici 0) t) ∧
    (∀ i, HasDerivWithinAt (fun s => vB s i) (aB i) (Ici 0) t) ∧
    mA • aA = f t - T • (pB t - pA t) - (mA * g) • ![0, 0, 1] ∧
    mB • aB = T • (pB t - pA t) - (mB * g) • ![0, 0, 1]

/-- The deviation of the two bodies from the balanced state: the horizontal offset of the ball, the velocity of the plate, and
the horizontal velocity of the ball relative to it. -/
def offBalance (pA vA pB vB : Fin 3 → ℝ) : Fin 7 → ℝ :=
  ![pB 0 - pA 0, pB 1 - pA 1, vA 0, vA 1, vA 2, vB 0 - vA 0, vB 1 - vA 1]

end NNL.Spec
