import Mathlib.Analysis.SpecialFunctions.Sigmoid

/-!
# The variational terms of `LatentSpaceDynamicsLearning` (dynamics_learning.py) and `SigmoidAnneal` (utils.py)

Latent vectors are functions on `Fin d`; a batch is a list of rows.
-/

namespace NNL.Model

open Real

variable {d : ℕ}

/-- dynamics_learning.py 706-716 `reparam`, for one row; `eps` is the row of `torch.randn`. -/
noncomputable def reparam (mu logVar eps : Fin d → ℝ) : Fin d → ℝ := fun i => eps i * exp (0.5 * logVar i) + mu i

/-- dynamics_learning.py 763-765: the term of one row in `kl_loss`. -/
noncomputable def klRow (mu logVar : Fin d → ℝ) : ℝ := -0.5 * ∑ i, (-(mu i) ^ 2 - exp (logVar i) + logVar i + 1)

/-- utils.py 1206-1231 `SigmoidAnneal`: the value at `step`. -/
noncomputable def sigmoidAnneal (lo up : ℝ) (center width : ℝ) (step : ℝ) : ℝ := lo + (up - lo) * sigmoid ((step - center) / width)

/-- dynamics_learning.py 756-769 `kl_loss`: `batch` has the rows `(z_mu, z_log_var)`; `weight` is `kl_loss_weight(n_iter)`. The mean of an
empty batch is NaN: no result. The log is not modelled. -/
noncomputable def klLoss (weight : ℝ) (batch : List ((Fin d → ℝ) × (Fin d → ℝ))) : Option ℝ :=
  if batch.length = 0 then none else some (weight * ((batch.map fun p => klRow p.1 p.2).sum / batch.length))

end NNL.Model
