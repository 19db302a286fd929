import Mathlib.InformationTheory.KullbackLeibler.Basic
import Mathlib.Probability.Distributions.Gaussian.Real

/-!
# Normal distributions of latent vectors
-/

namespace NNL.Spec

open MeasureTheory ProbabilityTheory

variable {d : ℕ}

/-- The normal distribution with independent entries of means `mu` and of variances `exp logVar`. -/
noncomputable def latentLaw (mu logVar : Fin d → ℝ) : Measure (Fin d → ℝ) :=
  Measure.pi fun i => gaussianReal (mu i) (Real.toNNReal (Real.exp (logVar i)))

/-- The standard normal distribution. -/
noncomputable def standardLaw (d : ℕ) : Measure (Fin d → ℝ) := Measure.pi fun _ => gaussianReal 0 1

end NNL.Spec
