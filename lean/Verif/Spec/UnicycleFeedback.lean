import Verif.Spec.Feedback

/-!
# The documented controller of `UnicycleFeedbackSystem`
-/

namespace NNL.Spec

open NNL

variable {K : Type*} [Field K] [LinearOrder K]

/-- unicycle_feedback_system.py 14-16: `[vel, θ̇] = clamp(φ(x) - φ(0) + [λ |R [p_x, p_y]|₁, 0])`. -/
def UniControl (φ : Vec K → Vec K) (lam : K) (R : Mat K) (lower upper : List (Ext K)) (x u : Vec K) : Prop :=
  u.length = 2 ∧
    Saturated (lower.getD 0 ⊥) (upper.getD 0 ⊤)
      ((φ x).getD 0 0 - (φ [0, 0, 0]).getD 0 0 +
        lam * ((R.map fun r => |r.getD 0 0 * x.getD 0 0 + r.getD 1 0 * x.getD 1 0|).sum)) (u.getD 0 0) ∧
    Saturated (lower.getD 1 ⊥) (upper.getD 1 ⊤) ((φ x).getD 1 0 - (φ [0, 0, 0]).getD 1 0) (u.getD 1 0)

end NNL.Spec
