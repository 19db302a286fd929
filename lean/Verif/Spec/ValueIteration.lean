import Mathlib.Topology.Algebra.InfiniteSum.Basic
import Mathlib.Topology.Instances.Real.Lemmas

/-!
# Discounted costs of infinite paths
-/

namespace NNL.Spec

/-- `x` is the discounted cost of the infinite path `p`: all its transitions have finite costs, and their discounted sum is `x`. -/
def PathCost {S : Type*} (γ : ℝ) (r : S → S → WithTop ℝ) (p : ℕ → S) (x : ℝ) : Prop :=
  ∃ c : ℕ → ℝ, (∀ t, r (p t) (p (t + 1)) = (c t : WithTop ℝ)) ∧ HasSum (fun t => γ ^ t * c t) x

/-- The discounted costs of the infinite paths from `i`. -/
def costsFrom {S : Type*} (γ : ℝ) (r : S → S → WithTop ℝ) (i : S) : Set ℝ := {x | ∃ p : ℕ → S, p 0 = i ∧ PathCost γ r p x}

end NNL.Spec
