import Verif.Spec.Lyapunov
import Verif.Spec.Pattern

/-!
# One-sided derivatives of the Lyapunov function
-/

set_option linter.unusedSectionVars false

namespace NNL.Spec

open NNL

variable {K : Type*} [Field K] [LinearOrder K]

/-- `Σ ± y_i`, with the signs `σ`. -/
def signSum (σ : List Bool) (y : Vec K) : K := (List.zipWith (fun b t => if b then t else -t) σ y).sum

/-- The flags `pat` of the units and `σ` of the entries of `R (x - x*)` are signs at `x`: they select an
affine function which agrees with `V` at `x`. -/
def PieceAt (net : Net K) (R : Mat K) (xe x : Vec K) (pat : List (List Bool)) (σ : List Bool) : Prop :=
  Realises net.hidden x pat ∧ List.Forall₂ SignOk σ (matVec R (vsub x xe))

/-- The derivative of that affine function in direction `v`. -/
def pieceRate (net : Net K) (R : Mat K) (lam : K) (pat : List (List Bool)) (σ : List Bool) (v : Vec K) : K :=
  (net.dir pat v).getD 0 0 + lam * signSum σ (matVec R v)

/-- The slope of `V` at `x` in direction `v`: `V` is affine on a piece of the ray. -/
def HasSlope (V : Vec K → K) (x v : Vec K) (d : K) : Prop :=
  ∃ T, 0 < T ∧ ∀ t, 0 ≤ t → t ≤ T → V (vadd x (vsmul t v)) = V x + t * d

end NNL.Spec
