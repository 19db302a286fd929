import Verif.Basic.Vec

/-!
# Scalar specifications

Mathematical functions the encodings are supposed to represent; nothing here refers to an encoding.
-/

set_option linter.unusedSectionVars false

namespace NNL.Spec

variable {K : Type*} [Field K] [LinearOrder K]

/-- ReLU: `max(x, 0)`. -/
def relu (x : K) : K := max x 0

/-- Leaky ReLU with negative slope `a` (definition of `torch.nn.LeakyReLU`):
`max(0, x) + a * min(0, x)`. -/
def leaky (a x : K) : K := max x 0 + a * min x 0

/-- Saturation between two limits. -/
def clamp (lo up x : K) : K := max lo (min x up)

variable [IsStrictOrderedRing K]

theorem leaky_of_nonneg {a x : K} (h : 0 ≤ x) : leaky a x = x := by
  simp [leaky, h]
theorem leaky_of_nonpos {a x : K} (h : x ≤ 0) : leaky a x = a * x := by
  simp [leaky, h]
theorem leaky_zero_eq_relu (x : K) : leaky 0 x = relu x := by simp [leaky, relu]

end NNL.Spec
