import Verif.Basic.Vec

/-! # Norms and their sub-gradients -/

set_option linter.unusedSectionVars false

namespace NNL.Spec

open NNL

variable {K : Type*} [Field K] [LinearOrder K]

/-- The 1-norm. -/
def norm1 (x : Vec K) : K := (x.map fun a => |a|).sum

/-- `m` is the infinity-norm of `x`: an upper bound of the magnitudes, attained by one of them. -/
def IsNormInf (x : Vec K) (m : K) : Prop := (∀ a ∈ x, |a| ≤ m) ∧ ∃ a ∈ x, |a| = m

/-- `g` is a sub-gradient of `f` at `x`, among vectors of the dimension of `x`. -/
def IsSubgrad (f : Vec K → K) (x g : Vec K) : Prop :=
  g.length = x.length ∧ ∀ y, y.length = x.length → f x + (dot g y - dot g x) ≤ f y

/-- Sign of a number. -/
def sgn (a : K) : K := if 0 < a then 1 else if a < 0 then -1 else 0

/-- The vector with the single non-zero entry `c` at position `i`. -/
def unitAt (n i : ℕ) (c : K) : Vec K := (List.range n).map fun j => if j = i then c else 0

end NNL.Spec
