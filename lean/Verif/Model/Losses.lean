import Verif.Model.Lyapunov
import Verif.Model.Encoders

/-!
# Losses at samples (lyapunov.py 305-366, 990-1076, barrier.py 212-235, utils.py 1565-1573)
-/

set_option linter.unusedSectionVars false

namespace NNL.Model

open NNL NNL.Spec

variable {K : Type*} [Field K] [LinearOrder K]

/-- `torch.nn.HingeEmbeddingLoss(margin=margin, reduction="none")(x, -1)`: `max(0, margin - x)`. -/
def hinge (margin x : K) : K := max 0 (margin - x)

/-- The allowed values of `reduction`. -/
inductive Reduction where
  | mean | max | fourNorm
deriving DecidableEq

/-- `torch.mean` of a nonempty vector. -/
def vmean (h : Vec K) : K := h.sum / h.length

/-- `torch.norm(h, p=4)`: the nonnegative fourth root of the sum of fourth powers. A root need not exist in
`K`, so this is a relation. -/
def IsFourNorm (h : Vec K) (r : K) : Prop := 0 ≤ r ∧ r ^ 4 = (h.map fun a => a ^ 4).sum

/-- lyapunov.py 348-366, 1067-1076; utils.py 1565-1573 `loss_reduction` (without weights). `r` is the loss computed from the
losses `h` of the samples. `weight` is only used with `mean`. On an empty batch `torch.max` raises and
`torch.mean` gives NaN: no result. -/
def Reduces (red : Reduction) (weight : Option (Vec K)) (h : Vec K) (r : K) : Prop :=
  match red, weight with
  | .mean, none => h ≠ [] ∧ r = vmean h
  | .mean, some w => h ≠ [] ∧ w.length = h.length ∧ r = vmean (List.zipWith (· * ·) w h)
  | .max, _ => h ≠ [] ∧ r = vmax h
  | .fourNorm, _ => IsFourNorm h r

/-- lyapunov.py 344-347: the hinge losses of the positivity condition. -/
def Lyap.positivityHinge (L : Lyap K) (xs : List (Vec K)) (xe : Vec K) (lam eps : K)
    (R : Option (Tensor2 K)) (margin : K) : Option (Vec K) := do
  let R' ← getR R L.dim
  let v ← L.values xs xe lam R
  some ((List.zipWith (fun v x => v - eps * l1err R' xe x) v xs).map (hinge margin))

/-- lyapunov.py 305-366 `lyapunov_positivity_loss_at_samples`: `r` is the returned loss. -/
def Lyap.PositivityLoss (L : Lyap K) (xs : List (Vec K)) (xe : Vec K) (lam eps : K)
    (R : Option (Tensor2 K)) (margin : K) (red : Reduction) (weight : Option (Vec K)) (r : K) : Prop :=
  ∃ h, L.positivityHinge xs xe lam eps R margin = some h ∧ Reduces red weight h r

/-- lyapunov.py 1049-1066: the argument of the hinge loss for one sample. -/
def derivArg (et : EpsType) (eps v1 v2 e : K) : K :=
  match et with
  | .expLower => -(v2 - v1 + eps * v1)
  | .expUpper => v2 - v1 + eps * v1
  | .asymp => -(v2 - v1 + eps * e)

/-- lyapunov.py 1046-1066: the hinge losses of the derivative condition. -/
def Lyap.derivativeHinge (L : Lyap K) (xs xn : List (Vec K)) (xe : Vec K) (lam eps : K) (et : EpsType)
    (R : Option (Tensor2 K)) (margin : K) : Option (Vec K) :=
  if xs.length = xn.length then do
    let R' ← getR R L.dim
    let v1 ← L.values xs xe lam R
    let v2 ← L.values xn xe lam R
    some ((List.zipWith (fun (p : K × K) x => derivArg et eps p.1 p.2 (l1err R' xe x)) (v1.zip v2) xs).map
      (hinge margin))
  else none

/-- lyapunov.py 990-1076 `lyapunov_derivative_loss_at_samples_and_next_states`. -/
def Lyap.DerivativeLoss (L : Lyap K) (xs xn : List (Vec K)) (xe : Vec K) (lam eps : K) (et : EpsType)
    (R : Option (Tensor2 K)) (margin : K) (red : Reduction) (weight : Option (Vec K)) (r : K) : Prop :=
  ∃ h, L.derivativeHinge xs xn xe lam eps et R margin = some h ∧ Reduces red weight h r

end NNL.Model
