import Verif.Spec.Norm

/-!
# Convex hulls and piecewise linear functions
-/

set_option linter.unusedSectionVars false

namespace NNL.Spec

open NNL

variable {K : Type*} [Field K] [LinearOrder K]

/-- `x` is a convex combination of the vertices `vs`, points with `n` coordinates. -/
def InHull (n : ℕ) (vs : List (Vec K)) (x : Vec K) : Prop :=
  ∃ w : Vec K, w.length = vs.length ∧ (∀ a ∈ w, 0 ≤ a) ∧ w.sum = 1 ∧ x = vecMat n w vs

/-- On the hull of `vs`, where `ẋ = A x + g` and `V(x) = c x + d`: `V̇ + ε₂ V ≤ s₁`. -/
def DerivativeOn (n : ℕ) (vs : List (Vec K)) (A : Mat K) (g : Vec K) (eps2 : K) (c : Vec K) (d s1 : K) : Prop :=
  ∀ x, InHull n vs x → dot c (vadd (matVec A x) g) + eps2 * (dot c x + d) ≤ s1

/-- On the hull of `vs`: `V - ε₁ |x - x*|₁ ≥ -s₂`. -/
def PositiveOn (n : ℕ) (vs : List (Vec K)) (xe : Vec K) (eps1 : K) (c : Vec K) (d s2 : K) : Prop :=
  ∀ x, InHull n vs x → -s2 ≤ dot c x + d - eps1 * norm1 (vsub x xe)

/-- On the hull of `us` the two pieces agree. -/
def AgreeOn (n : ℕ) (us : List (Vec K)) (c : Vec K) (d : K) (c' : Vec K) (d' : K) : Prop :=
  ∀ x, InHull n us x → dot c x + d = dot c' x + d'

end NNL.Spec
