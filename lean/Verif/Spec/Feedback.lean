import Verif.Spec.Hybrid
import Verif.Spec.Scalar

/-!
# Saturated control
-/

namespace NNL.Spec

variable {K : Type*} [Field K] [LinearOrder K]

/-- The admissible limits: none, or two finite ones in order (documented in feedback_system.py 60-71). -/
def Limits (l h : Ext K) : Prop := (l = ⊥ ∧ h = ⊤) ∨ ∃ a b, l = Ext.fin a ∧ h = Ext.fin b ∧ a ≤ b

/-- `u` is `p` saturated at the limits. -/
def Saturated (l h : Ext K) (p u : K) : Prop :=
  (l = ⊥ ∧ h = ⊤ ∧ u = p) ∨ ∃ a b, l = Ext.fin a ∧ h = Ext.fin b ∧ u = clamp a b p

end NNL.Spec
