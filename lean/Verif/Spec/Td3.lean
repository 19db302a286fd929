import Verif.Model.Td3

/-!
# Specification of the interaction of `td3` with its environment
-/

namespace NNL.Spec

open NNL.Model

variable {E O A K : Type} [Zero K] [One K]

/-- `log` is a sequence of episodes of the environment: `e t` and `o t` are its state and its observation before step `t`, and `start t` is
the step at which the episode of step `t` began. An episode ends when the environment says so, or after `maxLen` steps; only the
former is recorded as `done`. -/
structure Episodes (G : GymEnv E O A K) (maxLen : ℕ) (e0 : E) (log : List (Transition O A K)) (e : ℕ → E) (o : ℕ → O)
    (start : ℕ → ℕ) : Prop where
  first : (o 0, e 0) = G.reset e0 ∧ start 0 = 0
  before : ∀ t tr, log[t]? = some tr → start t ≤ t ∧ tr.obs = o t
  step : ∀ t tr, log[t]? = some tr → ∃ d e', G.step (e t) tr.act = ((tr.nextObs, tr.rew, d), e') ∧
    (t + 1 - start t = maxLen → tr.done = 0 ∧ (o (t + 1), e (t + 1)) = G.reset e' ∧ start (t + 1) = t + 1) ∧
    (t + 1 - start t ≠ maxLen → d = true → tr.done = 1 ∧ (o (t + 1), e (t + 1)) = G.reset e' ∧ start (t + 1) = t + 1) ∧
    (t + 1 - start t ≠ maxLen → d = false →
      tr.done = 0 ∧ (o (t + 1), e (t + 1)) = (tr.nextObs, e') ∧ start (t + 1) = start t)

end NNL.Spec
