import Verif.Basic.Vec
import Mathlib.Algebra.BigOperators.Group.Finset.Basic
import Mathlib.Analysis.Real.Sqrt

/-! # Specification of the optimizer directions: exponentially weighted sums of the gradients seen so far -/

namespace NNL.Spec

open NNL

variable {K : Type*} [Field K]

/-- `x_{n-1} + β x_{n-2} + β² x_{n-3} + …`: newer entries weigh more. -/
def expSum (β : K) (xs : List K) : K := ∑ k ∈ Finset.range xs.length, β ^ (xs.length - 1 - k) * xs.getD k 0

/-- The weighted average of `xs` with weights `1, β, β², …` from the newest backwards. -/
def expAvg (β : K) (xs : List K) : K := expSum β xs / ∑ k ∈ Finset.range xs.length, β ^ k

/-- The momentum buffer of a scalar with gradients `x₀, x₁, …`: `x₀` is not dampened, the others are. -/
def momentum (μ δ : K) : List K → K
  | [] => 0
  | x :: xs => μ ^ xs.length * x + (1 - δ) * expSum μ xs

/-- The gradient of a coordinate that a step descends along: the newest gradient, the momentum, or Nesterov's combination. -/
def gdDir (μ δ : K) (nesterov : Bool) [DecidableEq K] (xs : List K) : K :=
  if μ = 0 then xs.getLastD 0
  else if nesterov then xs.getLastD 0 + μ * momentum μ δ xs
  else momentum μ δ xs

/-- The largest of the (uncorrected) second moments up to now. -/
noncomputable def maxMoment (β : ℝ) (xs : List ℝ) : ℝ :=
  ((List.range (xs.length + 1)).map fun n => (1 - β) * expSum β ((xs.take n).map (· ^ 2))).foldr max 0

/-- Adam's normalized gradient of a coordinate with gradients `xs`: bias corrected averages of the gradients and of their squares; with
`amsgrad` the largest second moment replaces the newest. -/
noncomputable def adamDir (β1 β2 ε : ℝ) (amsgrad : Bool) (xs : List ℝ) : ℝ :=
  expAvg β1 xs / (√(if amsgrad then maxMoment β2 xs / (1 - β2 ^ xs.length) else expAvg β2 (xs.map (· ^ 2))) + ε)

end NNL.Spec
