import Verif.Model.HybridRate

/-!
# The loss of the continuous-time derivative condition at samples (continuous_time_lyapunov.py 242-302)

`LyapunovContinuousTimeSystem.lyapunov_derivative_loss_at_samples_and_next_states`, where `state_next` are the
velocities, and `_lyapunov_gradient_batch` of lyapunov.py 507-523. The flag `requires_grad` and the graph kept for
the optimizer are dropped: the values are modelled, not their derivatives in the weights.
-/

set_option linter.unusedSectionVars false

namespace NNL.Model

open NNL NNL.Spec

variable {K : Type*} [Field K] [LinearOrder K]

/-- lyapunov.py 507-523 `_lyapunov_gradient_batch`, one row: the gradient which `torch.autograd.grad` returns. The
derivative of a unit at zero is that of the inactive unit and the derivative of `|.|₁` is `torch.sign`. -/
def Lyap.autoGradient (L : Lyap K) (x xe : Vec K) (lam : K) (R : Mat K) : Option (Vec K) :=
  (reluGivenPattern L.net L.dim (strictPattern L.net.hidden x)).map fun p =>
    vadd (p.gT.getD 0 []) (vsmul lam (vecMat L.dim ((matVec R (vsub x xe)).map torchSign) R))

/-- continuous_time_lyapunov.py 277-291: the hinge loss of one sample `t.1` with velocity `t.2`. -/
def Lyap.contHinge (L : Lyap K) (xe : Vec K) (lam eps : K) (R : Option (Tensor2 K)) (R' : Mat K) (margin : K)
    (t : Vec K × Vec K) : Option K := do
  let v ← L.value t.1 xe lam R
  let g ← L.autoGradient t.1 xe lam R'
  some (hinge margin (-(dot g t.2 + eps * v)))

/-- continuous_time_lyapunov.py 262-291: the checks and the hinge losses of all the samples. `lyapunov_value` is
given the matrix from `_get_R`, which is the same as giving it `R`. -/
def Lyap.contHinges (L : Lyap K) (xs xds : List (Vec K)) (xe : Vec K) (lam eps : K) (et : EpsType)
    (R : Option (Tensor2 K)) (margin tol : K) : Option (Vec K) :=
  if xs.length = xds.length ∧ (∀ x ∈ xs, x.length = L.dim) ∧ (∀ xd ∈ xds, xd.length = L.dim) ∧ xe.length = L.dim ∧
      et = .expLower ∧ 0 ≤ tol then do
    let R' ← getR R L.dim
    (xs.zip xds).mapM (L.contHinge xe lam eps R R' margin)
  else none

/-- continuous_time_lyapunov.py 242-302 `lyapunov_derivative_loss_at_samples_and_next_states`: `r` is the returned
loss; `tol` is only checked for its sign. -/
def Lyap.ContRateLoss (L : Lyap K) (xs xds : List (Vec K)) (xe : Vec K) (lam eps : K) (et : EpsType)
    (R : Option (Tensor2 K)) (margin : K) (red : Reduction) (weight : Option (Vec K)) (tol r : K) : Prop :=
  ∃ h, L.contHinges xs xds xe lam eps et R margin tol = some h ∧ Reduces red weight h r

end NNL.Model
